import Verif.Model.FontFloat
import Verif.Proof.Font
import Verif.Proof.F64

/-! The lower envelope with rounded separators. -/
namespace Verif.Font

open F64 (rnd)

/-- what the proof needs of the rounded separators: right up to `δ` between two finite sites, and on the right side of
`[0, D]` when one of them is not finite -/
structure Sep (f : Nat → ℚ) (sm : Nat → Prop) (n : Nat) (δ D : ℚ) : Prop where
  δ0 : 0 ≤ δ
  DI : D < INF
  A1 : ∀ v q, v < q → q < n → sm v → sm q → ∀ x, getSF f q v ≤ x → P f q x ≤ P f v x + δ
  A2 : ∀ v q, v < q → q < n → sm v → sm q → ∀ x, x ≤ getSF f q v → P f v x ≤ P f q x + δ
  B : ∀ v q, v < q → q < n → sm v → ¬ sm q → D < getSF f q v
  C : ∀ v q, v < q → q < n → ¬ sm v → sm q → getSF f q v < 0
  lo : ∀ v q, v < q → q < n → -INF < getSF f q v
  hi : ∀ v q, v < q → q < n → getSF f q v < INF

/-- the sites `0..q`: on `[0, D]` the kept site is finite if there is a finite one, and best up to `2qδ` -/
structure EnvF (f : Nat → ℚ) (sm : Nat → Prop) (δ D : ℚ) (q k : Nat) (v : Nat → Nat) (z : Nat → ℚ) : Prop where
  kq : k ≤ q
  vle : ∀ i ≤ k, v i ≤ q
  z0 : z 0 = -INF
  zk : z (k + 1) = INF
  zmono : ∀ i ≤ k, z i ≤ z (i + 1)
  opt : ∀ i ≤ k, ∀ x, 0 ≤ x → x ≤ D → z i ≤ x → x ≤ z (i + 1) → (∃ j ≤ q, sm j) →
    sm (v i) ∧ ∀ j ≤ q, sm j → P f (v i) x ≤ P f j x + 2 * q * δ

theorem EnvF.mono {f : Nat → ℚ} {sm : Nat → Prop} {δ D : ℚ} {q k : Nat} {v : Nat → Nat} {z : Nat → ℚ}
    (E : EnvF f sm δ D q k v z) (i m : Nat) (h : i ≤ m) (hm : m ≤ k + 1) : z i ≤ z m := by
  induction m, h using Nat.le_induction with
  | base => exact le_refl _
  | succ m hm' ih => exact (ih (by omega)).trans (E.zmono m (by omega))

/-- every `x` from `z r` on lies in a cell from `r` on -/
theorem EnvF.cell {f : Nat → ℚ} {sm : Nat → Prop} {δ D : ℚ} {q k : Nat} {v : Nat → Nat} {z : Nat → ℚ}
    (E : EnvF f sm δ D q k v z) (x : ℚ) (hx : x ≤ INF) (r : Nat) (hr : r ≤ k) (h : z r ≤ x) :
    ∃ m, r ≤ m ∧ m ≤ k ∧ z m ≤ x ∧ x ≤ z (m + 1) := by
  obtain ⟨t, ht⟩ : ∃ t, r + t = k := ⟨k - r, by omega⟩
  induction t generalizing r with
  | zero => exact ⟨r, le_refl _, hr, h, by rw [show r = k by omega, E.zk]; exact hx⟩
  | succ t ih =>
    rcases le_total x (z (r + 1)) with h1 | h1
    · exact ⟨r, le_refl _, hr, h, h1⟩
    · obtain ⟨m, h2, h3⟩ := ih (r + 1) (by omega) h1 (by omega)
      exact ⟨m, by omega, h3⟩

theorem popLoopF_spec {f : Nat → ℚ} {sm : Nat → Prop} {δ D : ℚ} {n q k : Nat} {v : Nat → Nat} {z : Nat → ℚ}
    (S : Sep f sm n δ D) (hq : q + 1 < n) (E : EnvF f sm δ D q k v z) : ∀ m ≤ k,
    ∃ r ≤ m, popLoopF f v z (q + 1) m = some r ∧ z r < getSF f (q + 1) (v r) ∧
      ∀ i, r < i → i ≤ m → getSF f (q + 1) (v i) ≤ z i := by
  intro m
  induction m with
  | zero =>
    intro _
    have hv := E.vle 0 (by omega)
    have : ¬ getSF f (q + 1) (v 0) ≤ z 0 := by
      rw [E.z0]; push Not; exact S.lo _ _ (by omega) hq
    refine ⟨0, le_refl _, ?_, by push Not at this; exact this, by intro i h1 h2; omega⟩
    simp only [popLoopF, if_neg this]
  | succ m ih =>
    intro hm
    by_cases h : getSF f (q + 1) (v (m + 1)) ≤ z (m + 1)
    · obtain ⟨r, hr, e, h1, h2⟩ := ih (by omega)
      refine ⟨r, by omega, by simp only [popLoopF, if_pos h]; exact e, h1, ?_⟩
      intro i h3 h4
      rcases Nat.lt_or_ge i (m + 1) with h5 | h5
      · exact h2 i h3 (by omega)
      · rw [show i = m + 1 by omega]; exact h
    · exact ⟨m + 1, le_refl _, by simp only [popLoopF, if_neg h], by push Not at h; exact h, by intro i h1 h2; omega⟩

theorem buildStepF_spec {f : Nat → ℚ} {sm : Nat → Prop} {δ D : ℚ} {L n q k : Nat} {v : Nat → Nat} {z : Nat → ℚ}
    (S : Sep f sm n δ D) (hL : n < L) (hq : q + 1 < n) (E : EnvF f sm δ D q k v z) :
    ∃ st, buildStepF L f (k, v, z) (q + 1) = some st ∧ EnvF f sm δ D (q + 1) st.1 st.2.1 st.2.2 := by
  obtain ⟨r, hr, e, h1, h2⟩ := popLoopF_spec S hq E k (le_refl _)
  have hkq := E.kq
  have hvr := E.vle r hr
  have hs1 := S.hi (v r) (q + 1) (by omega) hq
  have hδ := S.δ0
  have hq0 : (0 : ℚ) ≤ q := Nat.cast_nonneg q
  have hqδ : (0 : ℚ) ≤ 2 * q * δ := by positivity
  have hgrow : 2 * ((q + 1 : Nat) : ℚ) * δ = 2 * q * δ + 2 * δ := by push_cast; ring
  -- where an old cell was popped, the new site is as good (finite) or the cell is out of range
  have hcov : ∀ x, 0 ≤ x → x ≤ D → z (r + 1) ≤ x → (∃ j ≤ q, sm j) →
      sm (q + 1) ∧ ∀ j ≤ q, sm j → P f (q + 1) x ≤ P f j x + 2 * q * δ + δ := by
    intro x hx0 hxD hx hj
    have hrk : r ≠ k := by
      intro e; rw [e, E.zk] at hx; have := S.DI; linarith
    obtain ⟨m, hm1, hm2, hm3, hm4⟩ := E.cell x (hxD.trans S.DI.le) (r + 1) (by omega) hx
    obtain ⟨hsm, hopt⟩ := E.opt m hm2 x hx0 hxD hm3 hm4 hj
    have hp := h2 m (by omega) hm2
    have hvm := E.vle m hm2
    have hnew : sm (q + 1) := by
      by_contra hc
      have := S.B (v m) (q + 1) (by omega) hq hsm hc
      linarith
    refine ⟨hnew, fun j hj hsj => ?_⟩
    have a := S.A1 (v m) (q + 1) (by omega) hq hsm hnew x (hp.trans hm3)
    have b := hopt j hj hsj
    linarith
  refine ⟨_, by simp only [buildStepF, e]; rw [if_pos (by omega)], ?_⟩
  refine ⟨by simp only; omega, ?_, ?_, ?_, ?_, ?_⟩
  · intro i hi
    simp only [put]
    split
    · omega
    · exact (E.vle i (by simp only at hi; omega)).trans (by omega)
  · simp only [put]; rw [if_neg (by omega), if_neg (by omega), E.z0]
  · simp only; rw [put_same]
  · intro i hi
    simp only at hi ⊢
    rcases Nat.lt_trichotomy i r with h | h | h
    · rw [put_ne _ _ (by omega), put_ne _ _ (by omega), put_ne _ _ (by omega), put_ne _ _ (by omega)]
      exact E.zmono i (by omega)
    · rw [put_ne _ _ (by omega), put_ne _ _ (by omega), put_ne _ _ (by omega), h, put_same]
      exact h1.le
    · rw [show i = r + 1 by omega, put_ne _ _ (by omega), put_same, put_same]
      exact hs1.le
  · intro i hi x hx0 hxD hx hx' hj
    rw [hgrow]
    simp only at hi hx hx' ⊢
    -- an old finite site, or only the new one
    have hold : x ≤ getSF f (q + 1) (v r) → (∃ j ≤ q, sm j) := by
      intro hxS
      obtain ⟨j, hj, hsj⟩ := hj
      rcases Nat.lt_or_ge j (q + 1) with h3 | h3
      · exact ⟨j, by omega, hsj⟩
      · rw [show j = q + 1 by omega] at hsj
        by_contra hc
        push Not at hc
        have := S.C (v r) (q + 1) (by omega) hq (hc _ hvr) hsj
        linarith
    have hvsm : x ≤ getSF f (q + 1) (v r) → sm (q + 1) → sm (v r) := by
      intro hxS hsq
      by_contra hc
      have := S.C (v r) (q + 1) (by omega) hq hc hsq
      linarith
    rcases Nat.lt_trichotomy i r with h | h | h
    · rw [put_ne _ _ (by omega), put_ne _ _ (by omega)] at hx hx'
      rw [put_ne _ _ (by omega)]
      have hxS : x ≤ getSF f (q + 1) (v r) := (hx'.trans (E.mono (i + 1) r (by omega) (by omega))).trans h1.le
      obtain ⟨hsm, hopt⟩ := E.opt i (by omega) x hx0 hxD hx hx' (hold hxS)
      refine ⟨hsm, fun j hj hsj => ?_⟩
      rcases Nat.lt_or_ge j (q + 1) with h3 | h3
      · have := hopt j (by omega) hsj
        linarith
      · have ej : j = q + 1 := by omega
        rw [ej] at hsj ⊢
        have hr' := hvsm hxS hsj
        have a := hopt (v r) hvr hr'
        have b := S.A2 (v r) (q + 1) (by omega) hq hr' hsj x hxS
        linarith
    · rw [put_ne _ _ (by omega), put_ne _ _ (by omega), h] at hx
      rw [put_ne _ _ (by omega), h, put_same] at hx'
      rw [put_ne _ _ (by omega), h]
      have ho := hold hx'
      rcases le_total x (z (r + 1)) with h4 | h4
      · obtain ⟨hsm, hopt⟩ := E.opt r hr x hx0 hxD hx h4 ho
        refine ⟨hsm, fun j hj hsj => ?_⟩
        rcases Nat.lt_or_ge j (q + 1) with h3 | h3
        · have := hopt j (by omega) hsj
          linarith
        · have ej : j = q + 1 := by omega
          rw [ej] at hsj ⊢
          have b := S.A2 (v r) (q + 1) (by omega) hq hsm hsj x hx'
          linarith
      · obtain ⟨hnew, hc⟩ := hcov x hx0 hxD h4 ho
        have hsm := hvsm hx' hnew
        have b := S.A2 (v r) (q + 1) (by omega) hq hsm hnew x hx'
        refine ⟨hsm, fun j hj hsj => ?_⟩
        rcases Nat.lt_or_ge j (q + 1) with h3 | h3
        · have := hc j (by omega) hsj
          linarith
        · have ej : j = q + 1 := by omega
          rw [ej] at hsj ⊢
          linarith
    · have hi' : i = r + 1 := by omega
      rw [hi', put_ne _ _ (by omega), put_same] at hx
      rw [hi', put_same]
      by_cases ho : ∃ j ≤ q, sm j
      · rcases le_total (z (r + 1)) x with h4 | h4
        · obtain ⟨hnew, hc⟩ := hcov x hx0 hxD h4 ho
          refine ⟨hnew, fun j hj hsj => ?_⟩
          rcases Nat.lt_or_ge j (q + 1) with h3 | h3
          · have := hc j (by omega) hsj
            linarith
          · rw [show j = q + 1 by omega]; linarith
        · obtain ⟨hsm, hopt⟩ := E.opt r hr x hx0 hxD (h1.le.trans hx) h4 ho
          have hnew : sm (q + 1) := by
            by_contra hc
            have := S.B (v r) (q + 1) (by omega) hq hsm hc
            linarith
          refine ⟨hnew, fun j hj hsj => ?_⟩
          rcases Nat.lt_or_ge j (q + 1) with h3 | h3
          · have a := hopt j (by omega) hsj
            have b := S.A1 (v r) (q + 1) (by omega) hq hsm hnew x hx
            linarith
          · rw [show j = q + 1 by omega]; linarith
      · push Not at ho
        obtain ⟨j, hj, hsj⟩ := hj
        have : j = q + 1 := by
          by_contra hc
          exact ho j (by omega) hsj
        rw [this] at hsj
        refine ⟨hsj, fun j hj hsj' => ?_⟩
        have : j = q + 1 := by
          by_contra hc
          exact ho j (by omega) hsj'
        rw [this]; linarith

theorem buildF_spec {f : Nat → ℚ} {sm : Nat → Prop} {δ D : ℚ} {L n : Nat} (S : Sep f sm n δ D) (hL : n < L) (hn : 0 < n)
    (v : Nat → Nat) (z : Nat → ℚ) :
    ∃ k v' z', (List.range' 1 (n - 1)).foldlM (buildStepF L f) (0, put v 0 0, put (put z 0 (-INF)) 1 INF) =
      some (k, v', z') ∧ EnvF f sm δ D (n - 1) k v' z' := by
  obtain ⟨st, e, h⟩ := foldlM_range' (buildStepF L f) (fun m st => EnvF f sm δ D m st.1 st.2.1 st.2.2) (n - 1)
    (0, put v 0 0, put (put z 0 (-INF)) 1 INF) (by
      refine ⟨le_refl _, ?_, ?_, ?_, ?_, ?_⟩
      · intro i hi; simp only at hi; rw [show i = 0 by omega]; simp [put]
      · simp [put]
      · simp [put]
      · intro i hi; simp only at hi; rw [show i = 0 by omega]
        simp only [put]
        norm_num [INF]
      · intro i hi x _ _ _ _ hj
        simp only at hi
        obtain ⟨j, hj, hsj⟩ := hj
        rw [show j = 0 by omega] at hsj
        rw [show i = 0 by omega]
        simp only [put_same]
        refine ⟨hsj, fun j hj _ => ?_⟩
        rw [show j = 0 by omega]
        simp)
    (by
      intro m hm st hst
      exact buildStepF_spec S hL (by omega) hst)
  exact ⟨st.1, st.2.1, st.2.2, e, h⟩

theorem advanceF_spec {f : Nat → ℚ} {sm : Nat → Prop} {δ D : ℚ} {n k : Nat} {v : Nat → Nat} {z : Nat → ℚ}
    (hn : n ≤ 4096) (E : EnvF f sm δ D (n - 1) k v z) (q : Nat) (hq : q < n) :
    ∀ (m i : Nat), i ≤ k → k - i < m → z i ≤ (q : ℚ) →
    ∃ r ≤ k, advance z q m i = some r ∧ z r ≤ q ∧ (q : ℚ) ≤ z (r + 1) := by
  have hqI : (q : ℚ) ≤ INF := by
    have : (q : ℚ) ≤ 4096 := by exact_mod_cast (by omega : q ≤ 4096)
    unfold INF; linarith
  intro m
  induction m with
  | zero => intro i _ h; omega
  | succ m ih =>
    intro i hi hm hz
    by_cases h : z (i + 1) < (q : ℚ)
    · have : i ≠ k := by
        intro e; rw [e, E.zk] at h; exact absurd hqI (not_le.2 h)
      obtain ⟨r, hr, e, h1⟩ := ih (i + 1) (by omega) (by omega) h.le
      exact ⟨r, hr, by simp only [advance, if_pos h]; exact e, h1⟩
    · exact ⟨i, hi, by simp only [advance, if_neg h], hz, by push Not at h; exact h⟩

/-- what is written for a pixel: the cost from a site that is best up to `2nδ` among the finite ones -/
def NearBest (f : Nat → ℚ) (sm : Nat → Prop) (n : Nat) (ε : ℚ) (q : Nat) (d : ℚ) : Prop :=
  ∃ v < n, d = costF f q v ∧ ((∃ j < n, sm j) → sm v ∧ ∀ j < n, sm j → P f v q ≤ P f j q + ε)

theorem edt1dF_spec {sm : Nat → Prop} {δ D : ℚ} (L n : Nat) (b : Bufs ℚ) (hL : n < L) (hn : 0 < n) (hn' : n ≤ 4096)
    (hD : 4096 ≤ D) (S : Sep b.f sm n δ D) :
    ∃ b', edt1dF L n b = some b' ∧ (∀ q < n, NearBest b.f sm n (2 * n * δ) q (b'.d q)) := by
  obtain ⟨k, v, z, e, E⟩ := buildF_spec S hL hn b.v b.z
  have hk := E.kq
  obtain ⟨st, e2, h2⟩ := foldlM_range (scanStepF L b.f v z)
    (fun m st => st.1 ≤ k ∧ (m = 0 → z st.1 ≤ 0) ∧ (0 < m → z st.1 ≤ ((m - 1 : Nat) : ℚ)) ∧
      ∀ q < m, NearBest b.f sm n (2 * n * δ) q (st.2 q)) n (0, b.d)
    (by
      refine ⟨by simp, ?_, by simp, by simp⟩
      intro _
      simp only [E.z0]
      norm_num [INF])
    (by
      intro m hm st hst
      obtain ⟨h1, h2, h3, h4⟩ := hst
      have hz : z st.1 ≤ (m : ℚ) := by
        rcases Nat.eq_zero_or_pos m with h | h
        · rw [h]; simpa using h2 h
        · refine (h3 h).trans ?_
          exact_mod_cast Nat.sub_le m 1
      obtain ⟨r, hr, er, hr1, hr2⟩ := advanceF_spec hn' E m hm (L - (st.1 + 1)) st.1 h1 (by omega) hz
      refine ⟨(r, put st.2 m (costF b.f m (v r))), by simp only [scanStepF, er], hr, by simp, ?_, ?_⟩
      · intro _; simpa using hr1
      · intro q hq
        simp only
        rcases Nat.lt_or_ge q m with h | h
        · rw [put_ne _ _ (by omega)]; exact h4 q h
        · rw [show q = m by omega, put_same]
          have hv := E.vle r hr
          refine ⟨v r, by omega, rfl, ?_⟩
          rintro ⟨j, hj, hsj⟩
          have hmD : (m : ℚ) ≤ D := by
            have : (m : ℚ) ≤ 4096 := by exact_mod_cast (by omega : m ≤ 4096)
            linarith
          obtain ⟨hsm, hopt⟩ := E.opt r hr m (Nat.cast_nonneg m) hmD hr1 hr2 ⟨j, by omega, hsj⟩
          refine ⟨hsm, fun j hj hsj => (hopt j (by omega) hsj).trans ?_⟩
          have hδ := S.δ0
          have : ((n - 1 : Nat) : ℚ) ≤ n := by exact_mod_cast Nat.sub_le n 1
          have : ((n - 1 : Nat) : ℚ) * δ ≤ n * δ := mul_le_mul_of_nonneg_right this hδ
          linarith)
  refine ⟨⟨b.f, st.2, v, z⟩, ?_, h2.2.2.2⟩
  rw [edt1dF, if_pos (by omega), e]
  simp only [e2]

/-! ## The rounded separators -/

theorem rnd_between {x lo hi : ℚ} (h1 : lo ≤ x) (h2 : x ≤ hi) (e1 : rnd lo = lo) (e2 : rnd hi = hi) :
    lo ≤ rnd x ∧ rnd x ≤ hi := by
  constructor
  · rw [← e1]; exact F64.rnd_mono h1
  · rw [← e2]; exact F64.rnd_mono h2

theorem rnd_nat (m : Nat) (h : m ≤ 9007199254740992) : rnd (m : ℚ) = m := by
  have := F64.rnd_int (m : ℤ) (by rw [abs_of_nonneg (by omega)]; norm_num; omega)
  exact_mod_cast this

theorem rnd_INF_add (k : Nat) (h : k ≤ 1000) : rnd (INF + k * 1048576 : ℚ) = INF + k * 1048576 := by
  have e := F64.rnd_exact (95367431640625 + k : ℤ) 20 (by rw [abs_of_nonneg (by omega)]; norm_num; omega)
  have ep : F64.pow2 20 = 1048576 := by rw [F64.pow2_eq]; norm_num
  rw [ep] at e
  have e2 : ((95367431640625 + k : ℤ) : ℚ) * 1048576 = INF + k * 1048576 := by
    unfold INF; push_cast; ring
  rw [e2] at e
  exact e

theorem rnd_INF : rnd (INF : ℚ) = INF := by
  have := rnd_INF_add 0 (by omega)
  simpa using this

theorem rnd_INF24 : rnd (INF + 16777216 : ℚ) = INF + 16777216 := by
  have := rnd_INF_add 16 (by omega)
  norm_num at this; exact this

theorem rnd_INF25 : rnd (INF + 33554432 : ℚ) = INF + 33554432 := by
  have := rnd_INF_add 32 (by omega)
  norm_num at this; exact this

theorem INF_val : (INF : ℚ) = 100000000000000000000 := by unfold INF; norm_num

/-- the two classes of values the slices hold -/
structure Classes (f : Nat → ℚ) (n : Nat) : Prop where
  n4096 : n ≤ 4096
  cls : ∀ j < n, (0 ≤ f j ∧ f j ≤ 33554432) ∨ (INF ≤ f j ∧ f j ≤ INF + 16777216)

/-- finite -/
def Fin' (f : Nat → ℚ) (j : Nat) : Prop := f j ≤ 33554432

theorem Classes.small {f : Nat → ℚ} {n : Nat} (H : Classes f n) {j : Nat} (hj : j < n) (h : Fin' f j) :
    0 ≤ f j ∧ f j ≤ 33554432 := by
  rcases H.cls j hj with h1 | h1
  · exact h1
  · have := h1.1; rw [INF_val] at this; unfold Fin' at h; linarith

theorem Classes.big {f : Nat → ℚ} {n : Nat} (H : Classes f n) {j : Nat} (hj : j < n) (h : ¬ Fin' f j) :
    INF ≤ f j ∧ f j ≤ INF + 16777216 := by
  rcases H.cls j hj with h1 | h1
  · exact absurd h1.2 h
  · exact h1

theorem sqSmallF (q : Nat) (h : q < 4096) : rnd ((q : ℚ) * q) = (q : ℚ) * q ∧ 0 ≤ (q : ℚ) * q ∧ (q : ℚ) * q ≤ 16777216 := by
  have h1 : q * q ≤ 16777216 := by nlinarith
  refine ⟨?_, by positivity, by exact_mod_cast h1⟩
  have := rnd_nat (q * q) (by omega)
  push_cast at this
  exact this

/-- `f[q] + q*q`, rounded -/
def apexF (f : Nat → ℚ) (q : Nat) : ℚ := rnd (f q + rnd ((q : ℚ) * q))

theorem apex_small {f : Nat → ℚ} {q : Nat} (hq : q < 4096) (h0 : 0 ≤ f q) (h1 : f q ≤ 33554432) :
    0 ≤ apexF f q ∧ apexF f q ≤ 67108864 ∧ |apexF f q - (f q + (q : ℚ) * q)| ≤ 1 / 134217728 := by
  obtain ⟨e, e0, e1⟩ := sqSmallF q hq
  unfold apexF
  rw [e]
  have hb := rnd_between (x := f q + (q : ℚ) * q) (lo := 0) (hi := 67108864) (by linarith) (by linarith) F64.rnd_zero
    (by have := rnd_nat 67108864 (by omega); exact_mod_cast this)
  refine ⟨hb.1, hb.2, ?_⟩
  refine (F64.rnd_err _).trans ?_
  rw [abs_of_nonneg (by linarith)]
  norm_num
  linarith

theorem apex_big {f : Nat → ℚ} {q : Nat} (hq : q < 4096) (h0 : INF ≤ f q) (h1 : f q ≤ INF + 16777216) :
    INF ≤ apexF f q ∧ apexF f q ≤ INF + 33554432 := by
  obtain ⟨e, e0, e1⟩ := sqSmallF q hq
  unfold apexF
  rw [e]
  exact rnd_between (by linarith) (by linarith) rnd_INF rnd_INF25

theorem den_eq {v q : Nat} (h : v < q) (hq : q < 4096) :
    rnd (rnd (2 * (q : ℚ)) - rnd (2 * (v : ℚ))) = 2 * (q : ℚ) - 2 * v ∧ 2 ≤ 2 * (q : ℚ) - 2 * v ∧
      2 * (q : ℚ) - 2 * v ≤ 8192 := by
  have a := rnd_nat (2 * q) (by omega)
  have b := rnd_nat (2 * v) (by omega)
  have c := rnd_nat (2 * q - 2 * v) (by omega)
  rw [Nat.cast_sub (by omega)] at c
  push_cast at a b c
  refine ⟨by rw [a, b, c], ?_, ?_⟩
  · have : (v : ℚ) + 1 ≤ q := by exact_mod_cast h
    linarith
  · have h1 : (q : ℚ) ≤ 4096 := by exact_mod_cast hq.le
    have h2 : (0 : ℚ) ≤ v := Nat.cast_nonneg v
    linarith

theorem getSF_eq {f : Nat → ℚ} {v q : Nat} (h : v < q) (hq : q < 4096) :
    getSF f q v = rnd (rnd (apexF f q - apexF f v) / (2 * (q : ℚ) - 2 * v)) := by
  unfold getSF
  rw [(den_eq h hq).1]
  rfl

theorem rnd_small_err {x B : ℚ} (h : |x| ≤ B) : |rnd x - x| ≤ B / 9007199254740992 := by
  refine (F64.rnd_err x).trans ?_
  rw [show (2 : ℚ) ^ 53 = 9007199254740992 by norm_num]
  gcongr

theorem classes_sep {f : Nat → ℚ} {n : Nat} (H : Classes f n) : Sep f (Fin' f) n (1 / 33554432) 67108864 := by
  have hn := H.n4096
  have hgen : ∀ v q, v < q → q < n → ∃ N, N = rnd (apexF f q - apexF f v) ∧
      getSF f q v = rnd (N / (2 * (q : ℚ) - 2 * v)) ∧ (2 : ℚ) ≤ 2 * (q : ℚ) - 2 * v ∧ 2 * (q : ℚ) - 2 * v ≤ 8192 :=
    fun v q h hq => ⟨_, rfl, getSF_eq h (by omega), (den_eq h (by omega)).2⟩
  have hmix : ∀ v q, v < q → q < n → Fin' f v → Fin' f q → ∃ s, |s| ≤ 1 / 33554432 ∧
      getSF f q v * (2 * (q : ℚ) - 2 * v) = f q + (q : ℚ) * q - (f v + (v : ℚ) * v) + s ∧ |getSF f q v| ≤ 67108864 := by
    intro v q h hq sv sq
    obtain ⟨N, eN, eS, d0, d1⟩ := hgen v q h hq
    have a := apex_small (f := f) (q := q) (by omega) (H.small hq sq).1 (H.small hq sq).2
    have b := apex_small (f := f) (q := v) (by omega) (H.small (by omega) sv).1 (H.small (by omega) sv).2
    have hab : |apexF f q - apexF f v| ≤ 67108864 := by rw [abs_le]; constructor <;> linarith
    have c := rnd_small_err hab
    have hNb : |N| ≤ 67108864 := by
      rw [eN, abs_le]
      have e := rnd_nat 67108864 (by omega)
      push_cast at e
      refine rnd_between (abs_le.1 hab).1 (abs_le.1 hab).2 ?_ e
      rw [F64.rnd_neg, e]
    rw [← eN] at c
    have hq2 : |N / (2 * (q : ℚ) - 2 * v)| ≤ 67108864 / (2 * (q : ℚ) - 2 * v) := by
      rw [abs_div, abs_of_pos (show (0 : ℚ) < 2 * (q : ℚ) - 2 * v by linarith)]
      gcongr
    have dS := rnd_small_err hq2
    rw [← eS] at dS
    refine ⟨getSF f q v * (2 * (q : ℚ) - 2 * v) - (f q + (q : ℚ) * q - (f v + (v : ℚ) * v)), ?_, by ring, ?_⟩
    · have d2 : |getSF f q v * (2 * (q : ℚ) - 2 * v) - N| ≤ 1 / 134217728 := by
        have e1 : getSF f q v * (2 * (q : ℚ) - 2 * v) - N = (getSF f q v - N / (2 * (q : ℚ) - 2 * v)) * (2 * (q : ℚ) - 2 * v) := by
          rw [sub_mul, div_mul_cancel₀ _ (by linarith)]
        rw [e1, abs_mul, abs_of_pos (show (0 : ℚ) < 2 * (q : ℚ) - 2 * v by linarith)]
        calc _ ≤ 67108864 / (2 * (q : ℚ) - 2 * v) / 9007199254740992 * (2 * (q : ℚ) - 2 * v) := by gcongr
          _ = 67108864 / 9007199254740992 := by
            have : (2 * (q : ℚ) - 2 * v) ≠ 0 := by linarith
            generalize (2 * (q : ℚ) - 2 * v) = dd at this
            field_simp
          _ ≤ _ := by norm_num
      have a3 := abs_le.1 a.2.2
      have b3 := abs_le.1 b.2.2
      have c3 := abs_le.1 c
      have d3 := abs_le.1 d2
      rw [abs_le]
      constructor <;> linarith [a3.1, a3.2, b3.1, b3.2, c3.1, c3.2, d3.1, d3.2]
    · rw [eS, abs_le]
      have e := rnd_nat 67108864 (by omega)
      push_cast at e
      have h3 : |N / (2 * (q : ℚ) - 2 * v)| ≤ 67108864 :=
        hq2.trans (div_le_self (by norm_num) (by linarith))
      refine rnd_between (abs_le.1 h3).1 (abs_le.1 h3).2 ?_ e
      rw [F64.rnd_neg, e]
  have hPsub : ∀ v q : Nat, ∀ x, P f q x - P f v x = (f q + (q : ℚ) * q - (f v + (v : ℚ) * v)) - (2 * (q : ℚ) - 2 * v) * x := by
    intro v q x; unfold P; ring
  have hB : ∀ v q, v < q → q < n → Fin' f v → ¬ Fin' f q → (67108864 : ℚ) < getSF f q v ∧ getSF f q v < INF := by
    intro v q h hq sv sq
    obtain ⟨N, eN, eS, d0, d1⟩ := hgen v q h hq
    have a := apex_big (f := f) (q := q) (by omega) (H.big hq sq).1 (H.big hq sq).2
    have b := apex_small (f := f) (q := v) (by omega) (H.small (by omega) sv).1 (H.small (by omega) sv).2
    have hI := INF_val
    have hN : (2251799813685248 * 8192 : ℚ) ≤ N ∧ N ≤ INF + 33554432 := by
      rw [eN]
      refine rnd_between (by linarith) (by linarith) ?_ rnd_INF25
      have := F64.rnd_exact 8192 51 (by norm_num)
      rw [show F64.pow2 51 = 2251799813685248 by rw [F64.pow2_eq]; norm_num] at this
      push_cast at this
      rw [mul_comm]; exact this
    have hlo : (2251799813685248 : ℚ) ≤ N / (2 * (q : ℚ) - 2 * v) := by
      rw [le_div_iff₀ (by linarith)]
      nlinarith [hN.1]
    have hhi : N / (2 * (q : ℚ) - 2 * v) ≤ 73786976294838206464 := by
      rw [div_le_iff₀ (by linarith)]
      nlinarith [hN.2]
    have := rnd_between hlo hhi (by have := rnd_nat 2251799813685248 (by omega); exact_mod_cast this) (by
      have := F64.rnd_exact 1 66 (by norm_num)
      rw [show F64.pow2 66 = 73786976294838206464 by rw [F64.pow2_eq]; norm_num] at this
      push_cast at this
      rw [one_mul] at this; exact this)
    rw [← eS] at this
    constructor
    · linarith [this.1]
    · linarith [this.2]
  have hC : ∀ v q, v < q → q < n → ¬ Fin' f v → Fin' f q → -INF < getSF f q v ∧ getSF f q v < 0 := by
    intro v q h hq sv sq
    obtain ⟨N, eN, eS, d0, d1⟩ := hgen v q h hq
    have a := apex_small (f := f) (q := q) (by omega) (H.small hq sq).1 (H.small hq sq).2
    have b := apex_big (f := f) (q := v) (by omega) (H.big (by omega) sv).1 (H.big (by omega) sv).2
    have hI := INF_val
    have hN : -(INF + 33554432 : ℚ) ≤ N ∧ N ≤ -8192 := by
      rw [eN]
      refine rnd_between (by linarith) (by linarith) (by rw [F64.rnd_neg, rnd_INF25]) ?_
      rw [F64.rnd_neg]
      have := rnd_nat 8192 (by omega)
      push_cast at this
      rw [this]
    have hlo : (-73786976294838206464 : ℚ) ≤ N / (2 * (q : ℚ) - 2 * v) := by
      rw [le_div_iff₀ (by linarith)]
      nlinarith [hN.1]
    have hhi : N / (2 * (q : ℚ) - 2 * v) ≤ -1 := by
      rw [div_le_iff₀ (by linarith)]
      linarith [hN.2]
    have := rnd_between hlo hhi (by
      rw [F64.rnd_neg]
      have := F64.rnd_exact 1 66 (by norm_num)
      rw [show F64.pow2 66 = 73786976294838206464 by rw [F64.pow2_eq]; norm_num] at this
      push_cast at this
      rw [one_mul] at this; rw [this]) (by
      rw [F64.rnd_neg]
      have := rnd_nat 1 (by omega)
      push_cast at this
      rw [this])
    rw [← eS] at this
    constructor
    · linarith [this.1]
    · linarith [this.2]
  have hBB : ∀ v q, v < q → q < n → ¬ Fin' f v → ¬ Fin' f q → |getSF f q v| ≤ 33554432 := by
    intro v q h hq sv sq
    obtain ⟨N, eN, eS, d0, d1⟩ := hgen v q h hq
    have a := apex_big (f := f) (q := q) (by omega) (H.big hq sq).1 (H.big hq sq).2
    have b := apex_big (f := f) (q := v) (by omega) (H.big (by omega) sv).1 (H.big (by omega) sv).2
    have e := rnd_nat 33554432 (by omega)
    push_cast at e
    have hN : -33554432 ≤ N ∧ N ≤ 33554432 := by
      rw [eN]
      exact rnd_between (by linarith) (by linarith) (by rw [F64.rnd_neg, e]) e
    have h3 : |N / (2 * (q : ℚ) - 2 * v)| ≤ 33554432 := by
      rw [abs_div, abs_of_pos (show (0 : ℚ) < 2 * (q : ℚ) - 2 * v by linarith), div_le_iff₀ (by linarith)]
      have := abs_le.2 hN
      nlinarith
    rw [eS, abs_le]
    exact rnd_between (abs_le.1 h3).1 (abs_le.1 h3).2 (by rw [F64.rnd_neg, e]) e
  have hbd : ∀ v q, v < q → q < n → -INF < getSF f q v ∧ getSF f q v < INF := by
    intro v q h hq
    have hI := INF_val
    by_cases sv : Fin' f v <;> by_cases sq : Fin' f q
    · obtain ⟨s, -, -, h3⟩ := hmix v q h hq sv sq
      have := abs_le.1 h3
      constructor <;> linarith [this.1, this.2]
    · have := hB v q h hq sv sq
      constructor <;> linarith [this.1, this.2]
    · have := hC v q h hq sv sq
      constructor <;> linarith [this.1, this.2]
    · have := abs_le.1 (hBB v q h hq sv sq)
      constructor <;> linarith [this.1, this.2]
  refine ⟨by norm_num, by rw [INF_val]; norm_num, ?_, ?_, fun v q h hq sv sq => (hB v q h hq sv sq).1,
    fun v q h hq sv sq => (hC v q h hq sv sq).2, fun v q h hq => (hbd v q h hq).1, fun v q h hq => (hbd v q h hq).2⟩
  · intro v q h hq sv sq x hx
    obtain ⟨s, hs, es, -⟩ := hmix v q h hq sv sq
    have d := (den_eq h (by omega)).2.1
    have e := hPsub v q x
    have := (abs_le.1 hs).1
    have : getSF f q v * (2 * (q : ℚ) - 2 * v) ≤ x * (2 * (q : ℚ) - 2 * v) := mul_le_mul_of_nonneg_right hx (by linarith)
    linarith
  · intro v q h hq sv sq x hx
    obtain ⟨s, hs, es, -⟩ := hmix v q h hq sv sq
    have d := (den_eq h (by omega)).2.1
    have e := hPsub v q x
    have := (abs_le.1 hs).2
    have : x * (2 * (q : ℚ) - 2 * v) ≤ getSF f q v * (2 * (q : ℚ) - 2 * v) := mul_le_mul_of_nonneg_right hx (by linarith)
    linarith

/-! ## Columns and rows -/

theorem diff_rnd {q v : Nat} (hq : q < 4096) (hv : v < 4096) :
    rnd (rnd ((q : ℚ) - v) * rnd ((q : ℚ) - v)) = ((q : ℚ) - v) * ((q : ℚ) - v) ∧
      ((q : ℚ) - v) * ((q : ℚ) - v) ≤ 16777216 := by
  have e : rnd ((q : ℚ) - v) = (q : ℚ) - v := by
    have := F64.rnd_int ((q : ℤ) - v) (by rw [abs_le]; constructor <;> norm_num <;> omega)
    push_cast at this; exact this
  have h1 : |(q : ℤ) - v| ≤ 4096 := by rw [abs_le]; constructor <;> omega
  have h2 : ((q : ℤ) - v) * ((q : ℤ) - v) ≤ 16777216 := by
    have := abs_le.1 h1
    nlinarith
  refine ⟨?_, by exact_mod_cast h2⟩
  rw [e]
  have := F64.rnd_int (((q : ℤ) - v) * ((q : ℤ) - v)) (by
    rw [abs_of_nonneg (mul_self_nonneg _)]
    exact h2.trans (by norm_num))
  push_cast at this; exact this

theorem costF_eq (f : Nat → ℚ) {q v : Nat} (hq : q < 4096) (hv : v < 4096) : costF f q v = rnd (P f v q) := by
  unfold costF P
  rw [(diff_rnd hq hv).1]

theorem P_bounds (f : Nat → ℚ) {q v : Nat} (hq : q < 4096) (hv : v < 4096) :
    f v ≤ P f v q ∧ P f v q ≤ 16777216 + f v := by
  have := (diff_rnd hq hv).2
  have := mul_self_nonneg ((q : ℚ) - v)
  unfold P
  constructor <;> linarith

theorem NearBest.congr {f g : Nat → ℚ} {n : Nat} {ε : ℚ} {q : Nat} {d : ℚ} (h : ∀ j < n, f j = g j)
    (H : NearBest f (Fin' f) n ε q d) : NearBest g (Fin' g) n ε q d := by
  obtain ⟨v, hv, e, H⟩ := H
  have hF : ∀ j < n, (Fin' f j ↔ Fin' g j) := fun j hj => by unfold Fin'; rw [h j hj]
  have hP : ∀ j < n, P f j q = P g j q := fun j hj => by unfold P; rw [h j hj]
  refine ⟨v, hv, by rw [e]; unfold costF; rw [h v hv], ?_⟩
  rintro ⟨j, hj, hs⟩
  obtain ⟨h1, h2⟩ := H ⟨j, hj, (hF j hj).2 hs⟩
  refine ⟨(hF v hv).1 h1, fun j hj hs => ?_⟩
  rw [← hP v hv, ← hP j hj]
  exact h2 j hj ((hF j hj).2 hs)

theorem edt1dF_classes (L n : Nat) (b : Bufs ℚ) (hL : n < L) (hn : 0 < n) (g : Nat → ℚ) (hg : ∀ j < n, b.f j = g j)
    (H : Classes g n) :
    ∃ b', edt1dF L n b = some b' ∧ (∀ q < n, NearBest g (Fin' g) n (n / 16777216) q (b'.d q)) := by
  have H' : Classes b.f n := ⟨H.n4096, fun j hj => by rw [hg j hj]; exact H.cls j hj⟩
  obtain ⟨b', e, h⟩ := edt1dF_spec L n b hL hn H.n4096 (by norm_num) (classes_sep H')
  refine ⟨b', e, fun q hq => ?_⟩
  have := (h q hq).congr hg
  rwa [show (2 * (n : ℚ) * (1 / 33554432)) = n / 16777216 by ring] at this

/-- seeds: finite ones in `[0, 1]`, the others `INF` -/
def SeedOk (s : ℚ) : Prop := (0 ≤ s ∧ s ≤ 1) ∨ s = INF

theorem seed_classes {g : Nat → ℚ} {n : Nat} (hn : n ≤ 4096) (h : ∀ j < n, SeedOk (g j)) : Classes g n := by
  refine ⟨hn, fun j hj => ?_⟩
  rcases h j hj with h1 | h1
  · left; constructor <;> linarith [h1.1, h1.2]
  · right; rw [h1]; constructor <;> linarith

theorem seed_fin {g : Nat → ℚ} {n : Nat} (h : ∀ j < n, SeedOk (g j)) {j : Nat} (hj : j < n) :
    (Fin' g j ↔ g j ≤ 1) ∧ (g j ≤ 1 → 0 ≤ g j) := by
  unfold Fin'
  have := INF_val
  rcases h j hj with h1 | h1
  · exact ⟨⟨fun _ => h1.2, fun _ => by linarith [h1.2]⟩, fun _ => h1.1⟩
  · rw [h1]
    constructor
    · constructor <;> intro h2 <;> linarith
    · intro h2; linarith

/-- a column's value -/
theorem col_class {g : Nat → ℚ} {n : Nat} (hn : n ≤ 4096) (h : ∀ j < n, SeedOk (g j)) {ε : ℚ} {q : Nat} (hq : q < n)
    {c : ℚ} (H : NearBest g (Fin' g) n ε q c) :
    ((∃ j < n, g j ≤ 1) → (0 ≤ c ∧ c ≤ 33554432) ∧ ∃ v < n, g v ≤ 1 ∧ c = rnd (P g v q) ∧
      |c - P g v q| ≤ 1 / 268435456 ∧ ∀ j < n, g j ≤ 1 → P g v q ≤ P g j q + ε) ∧
    ((¬ ∃ j < n, g j ≤ 1) → INF ≤ c ∧ c ≤ INF + 16777216) := by
  obtain ⟨v, hv, e, H⟩ := H
  rw [costF_eq g (by omega) (by omega)] at e
  have hb := P_bounds g (q := q) (v := v) (by omega) (by omega)
  constructor
  · rintro ⟨j, hj, hs⟩
    obtain ⟨h1, h2⟩ := H ⟨j, hj, (seed_fin h hj).1.2 hs⟩
    have hg1 := (seed_fin h hv).1.1 h1
    have hg0 := (seed_fin h hv).2 hg1
    have hP : 0 ≤ P g v q ∧ P g v q ≤ 33554432 := by constructor <;> linarith [hb.1, hb.2]
    refine ⟨?_, v, hv, hg1, e, ?_, fun j hj hs => h2 j hj ((seed_fin h hj).1.2 hs)⟩
    · rw [e]
      refine rnd_between hP.1 hP.2 F64.rnd_zero ?_
      have := rnd_nat 33554432 (by omega)
      exact_mod_cast this
    · rw [e]
      have := rnd_small_err (x := P g v q) (B := 33554432) (by rw [abs_of_nonneg hP.1]; exact hP.2)
      refine this.trans ?_
      norm_num
  · intro hno
    have hgv : g v = INF := by
      rcases h v hv with h1 | h1
      · exact absurd ⟨v, hv, h1.2⟩ hno
      · exact h1
    rw [hgv] at hb
    rw [e]
    exact rnd_between (by linarith [hb.1]) (by linarith [hb.2]) rnd_INF rnd_INF24

/-- a pixel's value before the root -/
structure PixelF (g : Nat → Nat → ℚ) (w h x y : Nat) (d : ℚ) : Prop where
  fin : (∃ i < w, ∃ j < h, g i j ≤ 1) → ∃ i < w, ∃ j < h, g i j ≤ 1 ∧
    d = rnd (((x : ℚ) - i) * ((x : ℚ) - i) + rnd (((y : ℚ) - j) * ((y : ℚ) - j) + g i j)) ∧
    ∀ i' < w, ∀ j' < h, g i' j' ≤ 1 →
      ((x : ℚ) - i) * ((x : ℚ) - i) + (((y : ℚ) - j) * ((y : ℚ) - j) + g i j) ≤
        ((x : ℚ) - i') * ((x : ℚ) - i') + (((y : ℚ) - j') * ((y : ℚ) - j') + g i' j') + (w + h) / 16777216 + 1 / 134217728
  inf : (¬ ∃ i < w, ∃ j < h, g i j ≤ 1) → INF ≤ d ∧ d ≤ INF + 33554432

theorem edtF_spec (sq : ℚ → ℚ) (w h L : Nat) (g : Nat → Nat → ℚ) (b : Bufs ℚ) (hw : 0 < w) (hh : 0 < h) (hwL : w < L)
    (hhL : h < L) (hw' : w ≤ 4096) (hh' : h ≤ 4096) (hg : ∀ i < w, ∀ j < h, SeedOk (g i j)) :
    ∃ g' b', edtF sq L w h g b = some (g', b') ∧
      ∀ x < w, ∀ y < h, ∃ d, PixelF g w h x y d ∧ g' x y = sq d := by
  obtain ⟨st, e1, h1⟩ := foldlM_range (colStepF L h)
    (fun m st => (∀ x < m, ∀ y < h, NearBest (g x) (Fin' (g x)) h (h / 16777216) y (st.1 x y)) ∧
      (∀ x, m ≤ x → ∀ y, st.1 x y = g x y)) w
    (g, b) ⟨by intro x hx; omega, by intros; rfl⟩ (by
      intro m hm st hst
      obtain ⟨b', eb, hb⟩ := edt1dF_classes L h { st.2 with f := fun y => if y < h then st.1 m y else st.2.f y } hhL hh
        (g m) (fun j hj => by simp only [if_pos hj]; exact hst.2 m (le_refl _) j) (seed_classes hh' (hg m hm))
      refine ⟨(fun x' y => if x' = m ∧ y < h then b'.d y else st.1 x' y, b'), by simp only [colStepF, eb], ?_, ?_⟩
      · intro x hx y hy
        simp only
        rcases Nat.lt_or_ge x m with hxm | hxm
        · rw [if_neg (by omega)]; exact hst.1 x hxm y hy
        · have : x = m := by omega
          rw [if_pos ⟨this, hy⟩, this]
          exact hb y hy
      · intro x hx y
        simp only
        rw [if_neg (by omega)]
        exact hst.2 x (by omega) y)
  have hcol := fun x (hx : x < w) y (hy : y < h) => col_class hh' (hg x hx) hy (h1.1 x hx y hy)
  have hcls : ∀ y < h, Classes (fun x => st.1 x y) w := by
    intro y hy
    refine ⟨hw', fun x hx => ?_⟩
    by_cases hs : ∃ j < h, g x j ≤ 1
    · left; exact ((hcol x hx y hy).1 hs).1
    · right; exact (hcol x hx y hy).2 hs
  have hfin : ∀ y < h, ∀ x < w, (Fin' (fun x => st.1 x y) x ↔ ∃ j < h, g x j ≤ 1) := by
    intro y hy x hx
    have := INF_val
    by_cases hs : ∃ j < h, g x j ≤ 1
    · exact ⟨fun _ => hs, fun _ => ((hcol x hx y hy).1 hs).1.2⟩
    · refine ⟨fun h2 => ?_, fun h2 => absurd h2 hs⟩
      have h3 := ((hcol x hx y hy).2 hs).1
      unfold Fin' at h2
      simp only at h2
      linarith
  have hpix : ∀ y < h, ∀ x < w, ∀ d, NearBest (fun x => st.1 x y) (Fin' (fun x => st.1 x y)) w (w / 16777216) x d →
      PixelF g w h x y d := by
    intro y hy x hx d ⟨i, hi, e, H⟩
    rw [costF_eq _ (by omega) (by omega)] at e
    refine ⟨?_, ?_⟩
    · rintro ⟨i0, hi0, j0, hj0, hs0⟩
      obtain ⟨hs, hbest⟩ := H ⟨i0, hi0, (hfin y hy i0 hi0).2 ⟨j0, hj0, hs0⟩⟩
      obtain ⟨-, j, hj, hgj, ec, erri, hoptj⟩ := (hcol i hi y hy).1 ((hfin y hy i hi).1 hs)
      refine ⟨i, hi, j, hj, hgj, ?_, fun i' hi' j' hj' hs' => ?_⟩
      · rw [e]; unfold P; simp only [ec]; rfl
      · obtain ⟨-, j2, hj2, hgj2, ec2, err2, hopt2⟩ := (hcol i' hi' y hy).1 ⟨j', hj', hs'⟩
        have a := hbest i' hi' ((hfin y hy i' hi').2 ⟨j', hj', hs'⟩)
        have b := hopt2 j' hj' hs'
        have c1 := abs_le.1 erri
        have c2 := abs_le.1 err2
        unfold P at a b c1 c2
        simp only at a b c1 c2
        have : ((w : ℚ) + h) / 16777216 = w / 16777216 + h / 16777216 := by ring
        rw [this]
        linarith [c1.1, c1.2, c2.1, c2.2]
    · intro hno
      have hnoi : ¬ ∃ j < h, g i j ≤ 1 := fun ⟨j, hj, hs⟩ => hno ⟨i, hi, j, hj, hs⟩
      have hb := (hcol i hi y hy).2 hnoi
      have hp := P_bounds (fun x => st.1 x y) (q := x) (v := i) (by omega) (by omega)
      rw [e]
      exact rnd_between (by linarith [hb.1, hp.1]) (by linarith [hb.2, hp.2]) rnd_INF rnd_INF25
  obtain ⟨st2, e2, h2⟩ := foldlM_range (rowStepF sq L w)
    (fun m s => (∀ y < m, ∀ x < w, ∃ d, PixelF g w h x y d ∧ s.1 x y = sq d) ∧
      (∀ y, m ≤ y → ∀ x, s.1 x y = st.1 x y)) h st ⟨by intro y hy; omega, by intros; rfl⟩ (by
      intro m hm s hs
      obtain ⟨b', eb, hb⟩ := edt1dF_classes L w { s.2 with f := fun x => if x < w then s.1 x m else s.2.f x } hwL hw
        (fun x => st.1 x m) (fun j hj => by simp only [if_pos hj]; exact hs.2 m (le_refl _) j) (hcls m hm)
      refine ⟨(fun x y' => if y' = m ∧ x < w then sq (b'.d x) else s.1 x y', b'), by simp only [rowStepF, eb], ?_, ?_⟩
      · intro y hy x hx
        simp only
        rcases Nat.lt_or_ge y m with hym | hym
        · rw [if_neg (by omega)]; exact hs.1 y hym x hx
        · have hy' : y = m := by omega
          rw [if_pos ⟨hy', hx⟩, hy']
          exact ⟨b'.d x, hpix m hm x hx _ (hb x hx), rfl⟩
      · intro y hy x
        simp only
        rw [if_neg (by omega)]
        exact hs.2 y (by omega) x)
  refine ⟨st2.1, st2.2, ?_, fun x hx y hy => h2.1 y hy x hx⟩
  unfold edtF
  rw [e1]
  exact e2

end Verif.Font
