import Verif.Spec.TileID
import Verif.Proof.Quadkey
import Verif.Proof.Strconv

/-! # C01, C02, C03, C07, C08: integer tile ids -/
namespace Verif.Tid
open Verif.Go

/-- write a grid tile with natural coordinates -/
theorem grid_nat {t : TileID} (hg : t.InGrid) : ∃ x y : Nat, t = ⟨x, y, t.Z⟩ ∧ x < 2 ^ t.Z ∧ y < 2 ^ t.Z := by
  obtain ⟨X, Y, Z⟩ := t
  obtain ⟨h1, h2, h3, h4⟩ := hg
  simp only at *
  obtain ⟨x, rfl⟩ := Int.eq_ofNat_of_zero_le h1
  obtain ⟨y, rfl⟩ := Int.eq_ofNat_of_zero_le h3
  refine ⟨x, y, rfl, ?_, ?_⟩ <;> [exact_mod_cast h2; exact_mod_cast h4]

theorem inGrid_nat {x y z : Nat} (hx : x < 2 ^ z) (hy : y < 2 ^ z) : (⟨x, y, z⟩ : TileID).InGrid := by
  refine ⟨Int.natCast_nonneg _, ?_, Int.natCast_nonneg _, ?_⟩
  · show (x : Int) < 2 ^ z
    exact_mod_cast hx
  · show (y : Int) < 2 ^ z
    exact_mod_cast hy

/-- C01 (tile → key → tile): every tile of the world grid of zoom ≥ 1 comes back. `Valid`: the fields are values
of their Go types; `Z < 2^63` is the range in which `int(Z)` is non-negative. -/
theorem C01_quadkey_roundtrip (t : TileID) (hv : t.Valid) (hg : t.InGrid) (h1 : 1 ≤ t.Z)
    (hz : t.Z < 9223372036854775808) : quadkeyToTile (quadKey t) = t := by
  obtain ⟨x, y, ht, hx, hy⟩ := grid_nat hg
  obtain ⟨vx, vy, _⟩ := hv
  rw [ht] at vx vy
  unfold IsI64 at vx vy
  simp only at vx vy
  rw [ht, quadKey_eq x y t.Z (by omega) (by omega) (by omega)]
  exact decode_encode x y t.Z (by omega) (by omega) hx hy h1

example : (⟨486, 332, 10⟩ : TileID).Valid ∧ (⟨486, 332, 10⟩ : TileID).InGrid ∧
    quadKey ⟨486, 332, 10⟩ = "0313102310".toList := by decide

/-- C01 (key → tile → key): every non-empty string of at most 63 digits 0..3 comes back. -/
theorem C01_quadkey_string_roundtrip (s : List Char) (hne : s ≠ []) (hd : ∀ c ∈ s, c ∈ ['0', '1', '2', '3'])
    (hl : s.length ≤ 63) : quadKey (quadkeyToTile s) = s ∧ (quadkeyToTile s).InGrid ∧ (quadkeyToTile s).Valid := by
  rw [decode_spell s hne hl]
  have h63 : 2 ^ s.length ≤ 2 ^ 63 := Nat.pow_le_pow_right (by norm_num) hl
  have hx := spell_lt bx s
  have hy := spell_lt by' s
  refine ⟨?_, inGrid_nat hx hy, ?_, ?_, ?_⟩
  · rw [quadKey_eq _ _ _ (by omega) (by omega) (by omega)]
    exact qk_spell s hd
  · unfold IsI64; simp only; omega
  · unfold IsI64; simp only; omega
  · unfold IsU64; simp only; omega

example : quadKey (quadkeyToTile "0313102310".toList) = "0313102310".toList ∧
    (quadkeyToTile "0313102310".toList) = ⟨486, 332, 10⟩ := by decide

/-- C01, the exception: the world tile's key is empty and decodes to zoom 1. -/
theorem C01_zoom0_exception : quadKey ⟨0, 0, 0⟩ = [] ∧ quadkeyToTile [] = ⟨0, 0, 1⟩ := by decide

/-- C01, the bound is sharp: a 64-digit key overflows the sign bit and does not come back. -/
theorem C01_64_digits_fail :
    quadKey (quadkeyToTile (List.replicate 64 '1')) ≠ List.replicate 64 '1' := by decide +kernel

/-- C02: a key has exactly `Z` digits, all in 0..3. -/
theorem C02_quadkey_shape (t : TileID) (hv : t.Valid) (hg : t.InGrid) (hz : t.Z < 9223372036854775808) :
    (quadKey t).length = t.Z ∧ ∀ c ∈ quadKey t, c ∈ ['0', '1', '2', '3'] := by
  obtain ⟨x, y, ht, hx, hy⟩ := grid_nat hg
  obtain ⟨vx, vy, _⟩ := hv
  rw [ht] at vx vy
  unfold IsI64 at vx vy
  simp only at vx vy
  rw [ht, quadKey_eq x y t.Z (by omega) (by omega) (by omega)]
  exact ⟨qk_length x y t.Z, qk_mem x y t.Z⟩

example : (quadKey ⟨3, 1, 2⟩) = "13".toList := by decide

theorem pow63 {z : Nat} (h : z ≤ 63) : 2 ^ z ≤ 2 ^ 63 := Nat.pow_le_pow_right (by norm_num) h

theorem children_nat (x y z : Nat) (hz : z < 63) (hx : x < 2 ^ z) (hy : y < 2 ^ z) :
    children ⟨x, y, z⟩ = [⟨(2 * x : Nat), (2 * y : Nat), z + 1⟩, ⟨(2 * x + 1 : Nat), (2 * y : Nat), z + 1⟩,
      ⟨(2 * x + 1 : Nat), (2 * y + 1 : Nat), z + 1⟩, ⟨(2 * x : Nat), (2 * y + 1 : Nat), z + 1⟩] := by
  have h62 : 2 ^ z ≤ 2 ^ 62 := Nat.pow_le_pow_right (by norm_num) (by omega)
  unfold children
  simp only
  have hu : u64 ((z : Int) + 1) = z + 1 := by unfold u64; omega
  have a : ∀ n : Nat, n < 2 ^ 62 → i64 ((n : Int) * 2) = ((2 * n : Nat) : Int) := by
    intro n hn; rw [i64_of_lt (by unfold IsI64; omega)]; push_cast; ring
  have b : ∀ n : Nat, n < 2 ^ 62 → i64 ((n : Int) * 2 + 1) = ((2 * n + 1 : Nat) : Int) := by
    intro n hn; rw [i64_of_lt (by unfold IsI64; omega)]; push_cast; ring
  rw [a x (by omega), a y (by omega), b x (by omega), b y (by omega), hu]

theorem testBit_two_mul_succ (x j : Nat) : (2 * x).testBit (j + 1) = x.testBit j ∧
    (2 * x + 1).testBit (j + 1) = x.testBit j := by
  constructor
  · rw [Nat.testBit_succ]; congr 1; omega
  · rw [Nat.testBit_succ]; congr 1; omega

theorem qk_child (x y x' y' : Nat) (hx : x' / 2 = x) (hy : y' / 2 = y) :
    ∀ z, qk x' y' (z + 1) = qk x y z ++ [dchar (dig x' y' 0)]
  | 0 => by simp [qk]
  | z + 1 => by
    have e : dig x' y' (z + 1) = dig x y z := by
      unfold dig; rw [Nat.testBit_succ, Nat.testBit_succ, hx, hy]
    rw [qk, qk_child x y x' y' hx hy z, e]
    conv_rhs => rw [qk]
    rfl

/-- C02: the children's keys are the parent's key extended by 0, 1, 3, 2, in the order `Children` lists them. -/
theorem C02_children_keys (t : TileID) (hg : t.InGrid) (hz : t.Z < 63) :
    (children t).map quadKey = ['0', '1', '3', '2'].map (fun d => quadKey t ++ [d]) := by
  obtain ⟨x, y, ht, hx, hy⟩ := grid_nat hg
  have h62 : 2 ^ t.Z ≤ 2 ^ 62 := Nat.pow_le_pow_right (by norm_num) (by omega)
  rw [ht, children_nat x y t.Z hz hx hy]
  simp only [List.map_cons, List.map_nil]
  rw [quadKey_eq x y t.Z (by omega) (by omega) (by omega),
    quadKey_eq _ _ _ (by omega) (by omega) (by omega), quadKey_eq _ _ _ (by omega) (by omega) (by omega),
    quadKey_eq _ _ _ (by omega) (by omega) (by omega), quadKey_eq _ _ _ (by omega) (by omega) (by omega)]
  rw [qk_child x y (2 * x) (2 * y) (by omega) (by omega), qk_child x y (2 * x + 1) (2 * y) (by omega) (by omega),
    qk_child x y (2 * x + 1) (2 * y + 1) (by omega) (by omega), qk_child x y (2 * x) (2 * y + 1) (by omega) (by omega)]
  simp [dig, dchar]

example : (children ⟨1, 0, 1⟩).map quadKey = ["10".toList, "11".toList, "13".toList, "12".toList] := by decide

/-- C02: two grid tiles with the same key are the same tile. -/
theorem C02_quadkey_injective (t u : TileID) (ht : t.Valid) (hu : u.Valid) (gt : t.InGrid) (gu : u.InGrid)
    (zt : t.Z < 9223372036854775808) (zu : u.Z < 9223372036854775808) (h : quadKey t = quadKey u) : t = u := by
  have hlen : t.Z = u.Z := by
    rw [← (C02_quadkey_shape t ht gt zt).1, ← (C02_quadkey_shape u hu gu zu).1, h]
  rcases Nat.eq_zero_or_pos t.Z with h0 | h0
  · obtain ⟨X, Y, Z⟩ := t
    obtain ⟨X', Y', Z'⟩ := u
    simp only [TileID.InGrid] at *
    subst h0
    rw [← hlen] at gu
    simp only [pow_zero] at gt gu
    have e1 : X = X' := by omega
    have e2 : Y = Y' := by omega
    rw [e1, e2, hlen]
  · rw [← C01_quadkey_roundtrip t ht gt h0 zt, ← C01_quadkey_roundtrip u hu gu (by omega) zu, h]

example : quadKey ⟨3, 1, 2⟩ ≠ quadKey ⟨1, 3, 2⟩ := by decide

theorem valid_of_le63 {t : TileID} (hg : t.InGrid) (hz : t.Z ≤ 63) : t.Valid := by
  obtain ⟨x, y, ht, hx, hy⟩ := grid_nat hg
  have := pow63 hz
  rw [ht]
  refine ⟨?_, ?_, ?_⟩
  · unfold IsI64; simp only; omega
  · unfold IsI64; simp only; omega
  · unfold IsU64; simp only; omega

theorem children_inGrid {t u : TileID} (hg : t.InGrid) (hz : t.Z < 63) (hu : u ∈ children t) :
    u.InGrid ∧ u.Z = t.Z + 1 := by
  obtain ⟨x, y, ht, hx, hy⟩ := grid_nat hg
  rw [ht, children_nat x y t.Z hz hx hy] at hu
  have hp : (2 : Int) ^ (t.Z + 1) = 2 * 2 ^ t.Z := by ring
  have hx' : (x : Int) < 2 ^ t.Z := by exact_mod_cast hx
  have hy' : (y : Int) < 2 ^ t.Z := by exact_mod_cast hy
  simp only [List.mem_cons, List.not_mem_nil, or_false] at hu
  unfold TileID.InGrid
  rcases hu with rfl | rfl | rfl | rfl <;> simp only [hp] <;> push_cast <;> refine ⟨⟨?_, ?_, ?_, ?_⟩, trivial⟩ <;> omega

theorem descends_inGrid {t u : TileID} (hg : t.InGrid) (hz : t.Z ≤ 63) (h : Descends t u) : u.InGrid ∧ u.Z ≤ 63 := by
  induction h with
  | refl => exact ⟨hg, hz⟩
  | step h hz' hu ih =>
    obtain ⟨a, b⟩ := children_inGrid ih.1 hz' hu
    exact ⟨a, by omega⟩

theorem descends_prefix {t u : TileID} (hg : t.InGrid) (hz : t.Z ≤ 63) (h : Descends t u) :
    quadKey t <+: quadKey u := by
  induction h with
  | refl => exact List.prefix_rfl
  | @step v u h hz' hu ih =>
    have gv := (descends_inGrid hg hz h).1
    have hk := C02_children_keys v gv hz'
    have : quadKey u ∈ (children v).map quadKey := List.mem_map_of_mem hu
    rw [hk] at this
    simp only [List.map_cons, List.map_nil, List.mem_cons, List.not_mem_nil, or_false] at this
    rcases this with e | e | e | e <;> rw [e] <;> exact ih.trans (List.prefix_append _ _)

theorem exists_parent (x y z : Nat) (hz : z + 1 ≤ 63) (hx : x < 2 ^ (z + 1)) (hy : y < 2 ^ (z + 1)) :
    (⟨x, y, z + 1⟩ : TileID) ∈ children ⟨(x / 2 : Nat), (y / 2 : Nat), z⟩ := by
  rw [Nat.pow_succ] at hx hy
  rw [children_nat (x / 2) (y / 2) z (by omega) (by omega) (by omega)]
  have ex : x = 2 * (x / 2) ∨ x = 2 * (x / 2) + 1 := by omega
  have ey : y = 2 * (y / 2) ∨ y = 2 * (y / 2) + 1 := by omega
  simp only [List.mem_cons, TileID.mk.injEq, List.not_mem_nil, or_false, and_true, Nat.cast_inj]
  omega

theorem prefix_descends (k : Nat) : ∀ t u : TileID, t.InGrid → u.InGrid → t.Z ≤ 63 → u.Z ≤ 63 → u.Z = t.Z + k →
    quadKey t <+: quadKey u → Descends t u := by
  induction k with
  | zero =>
    intro t u gt gu zt zu hk hp
    have vt := valid_of_le63 gt zt
    have vu := valid_of_le63 gu zu
    have e : quadKey t = quadKey u := by
      apply hp.eq_of_length
      rw [(C02_quadkey_shape t vt gt (by omega)).1, (C02_quadkey_shape u vu gu (by omega)).1]; omega
    have := C02_quadkey_injective t u vt vu gt gu (by omega) (by omega) e
    subst this; exact .refl
  | succ k ih =>
    intro t u gt gu zt zu hk hp
    obtain ⟨x, y, hu, hx, hy⟩ := grid_nat gu
    obtain ⟨z, hz⟩ : ∃ z, u.Z = z + 1 := ⟨t.Z + k, by omega⟩
    rw [hz] at hu hx hy
    let v : TileID := ⟨(x / 2 : Nat), (y / 2 : Nat), z⟩
    have hmem : u ∈ children v := by rw [hu]; exact exists_parent x y z (by omega) hx hy
    have gv : v.InGrid := by
      rw [Nat.pow_succ] at hx hy
      exact inGrid_nat (by omega) (by omega)
    have hvz : v.Z = z := rfl
    have hk' := C02_children_keys v gv (by omega)
    have hkm : quadKey u ∈ (children v).map quadKey := List.mem_map_of_mem hmem
    rw [hk'] at hkm
    have : ∃ d, quadKey u = quadKey v ++ [d] := by
      simp only [List.map_cons, List.map_nil, List.mem_cons, List.not_mem_nil, or_false] at hkm
      rcases hkm with e | e | e | e <;> exact ⟨_, e⟩
    obtain ⟨d, hd⟩ := this
    have hpv : quadKey t <+: quadKey v := by
      rw [hd] at hp
      rcases List.prefix_concat_iff.mp hp with h | h
      · exfalso
        have := congrArg List.length h
        rw [(C02_quadkey_shape t (valid_of_le63 gt zt) gt (by omega)).1] at this
        rw [List.length_append, (C02_quadkey_shape v (valid_of_le63 gv (by omega)) gv (by omega)).1] at this
        simp at this; omega
      · exact h
    exact .step (ih t v gt gv zt (by omega) (by omega) hpv) (by omega) hmem

/-- C02: `u` descends from `t` through `Children` exactly when `t`'s key is a prefix of `u`'s key. -/
theorem C02_descendant_iff_prefix (t u : TileID) (gt : t.InGrid) (gu : u.InGrid) (zt : t.Z ≤ 63) (zu : u.Z ≤ 63) :
    Descends t u ↔ quadKey t <+: quadKey u := by
  constructor
  · exact descends_prefix gt zt
  · intro hp
    have hl := hp.length_le
    rw [(C02_quadkey_shape t (valid_of_le63 gt zt) gt (by omega)).1,
      (C02_quadkey_shape u (valid_of_le63 gu zu) gu (by omega)).1] at hl
    exact prefix_descends (u.Z - t.Z) t u gt gu zt zu (by omega) hp

example : Descends ⟨1, 0, 1⟩ ⟨5, 2, 3⟩ :=
  .step (.step .refl (by decide) (by decide : (⟨2, 1, 2⟩ : TileID) ∈ _)) (by decide) (by decide)

/-- C03: the children are four distinct tiles of the grid one zoom level down. -/
theorem C03_children_distinct_in_grid (t : TileID) (hg : t.InGrid) (hz : t.Z < 63) :
    (children t).length = 4 ∧ (children t).Nodup ∧ ∀ u ∈ children t, u.InGrid ∧ u.Z = t.Z + 1 := by
  refine ⟨rfl, ?_, fun u hu => children_inGrid hg hz hu⟩
  obtain ⟨x, y, ht, hx, hy⟩ := grid_nat hg
  rw [ht, children_nat x y t.Z hz hx hy]
  simp only [List.nodup_cons, List.mem_cons, TileID.mk.injEq, List.not_mem_nil, or_false, and_true,
    Nat.cast_inj, not_or, List.nodup_nil]
  refine ⟨⟨?_, ?_, ?_⟩, ⟨?_, ?_⟩, ?_, ?_⟩ <;> first | omega | simp

example : children ⟨1, 0, 1⟩ = [⟨2, 0, 2⟩, ⟨3, 0, 2⟩, ⟨3, 1, 2⟩, ⟨2, 1, 2⟩] := by decide

/-- C03: each grid tile of zoom `z+1` is a child of exactly one grid tile of zoom `z`. -/
theorem C03_unique_parent (u : TileID) (gu : u.InGrid) (h1 : 1 ≤ u.Z) (h63 : u.Z ≤ 63) :
    ∃! t : TileID, t.InGrid ∧ t.Z + 1 = u.Z ∧ u ∈ children t := by
  obtain ⟨x, y, hu, hx, hy⟩ := grid_nat gu
  obtain ⟨z, hz⟩ : ∃ z, u.Z = z + 1 := ⟨u.Z - 1, by omega⟩
  rw [hz] at hu hx hy
  refine ⟨⟨(x / 2 : Nat), (y / 2 : Nat), z⟩, ⟨?_, hz.symm, ?_⟩, ?_⟩
  · rw [Nat.pow_succ] at hx hy
    exact inGrid_nat (by omega) (by omega)
  · rw [hu]; exact exists_parent x y z (by omega) hx hy
  · rintro t ⟨gt, hz', hmem⟩
    obtain ⟨a, b, ht, ha, hb⟩ := grid_nat gt
    have htz : t.Z = z := by omega
    rw [htz] at ht ha hb
    rw [ht, children_nat a b z (by omega) ha hb, hu] at hmem
    simp only [List.mem_cons, TileID.mk.injEq, List.not_mem_nil, or_false, and_true, Nat.cast_inj] at hmem
    rw [ht]
    have h1 : a = x / 2 := by omega
    have h2 : b = y / 2 := by omega
    rw [h1, h2]

example : (⟨5, 2, 3⟩ : TileID) ∈ children ⟨2, 1, 2⟩ ∧ (⟨2, 1, 2⟩ : TileID).InGrid := by decide

/-- C03: different tiles (also of different zooms) have no child in common. -/
theorem C03_children_disjoint (t t' u : TileID) (gt : t.InGrid) (gt' : t'.InGrid) (z : t.Z < 63) (z' : t'.Z < 63)
    (h : u ∈ children t) (h' : u ∈ children t') : t = t' := by
  obtain ⟨g, e⟩ := children_inGrid gt z h
  obtain ⟨_, e'⟩ := children_inGrid gt' z' h'
  obtain ⟨_, _, huniq⟩ := C03_unique_parent u g (by omega) (by omega)
  rw [huniq t ⟨gt, by omega, h⟩, huniq t' ⟨gt', by omega, h'⟩]

example : ∀ u ∈ children ⟨2, 1, 2⟩, u ∉ children ⟨2, 2, 2⟩ := by decide

theorem tilestr_fields (t : TileID) (hv : t.Valid) :
    fromFields [itoa (i64 t.X), itoa (i64 t.Y), itoa (i64 t.Z)] = some t := by
  obtain ⟨hx, hy, hz⟩ := hv
  simp only [fromFields, List.getElem?_cons_zero, List.getElem?_cons_succ]
  rw [i64_of_lt hx, i64_of_lt hy, parseInt0_itoa _ hx, parseInt0_itoa _ hy,
    parseInt0_itoa _ (i64_isI64 _), u64_i64 _ hz]

/-- C07: `Strtile(Tilestr(t)) = t` for every 64-bit tile id, negative coordinates and `Z ≥ 2^63` included. -/
theorem C07_strtile_tilestr (t : TileID) (hv : t.Valid) : strtile (tilestr t) = some t := by
  unfold strtile tilestr
  rw [List.append_assoc, List.cons_append, split_append _ _ _ (slash_notin_itoa _),
    split_append _ _ _ (slash_notin_itoa _), split_no_sep _ _ (slash_notin_itoa _)]
  exact tilestr_fields t hv

example : strtile (tilestr ⟨-5, 12345678901, 18446744073709551615⟩) =
    some ⟨-5, 12345678901, 18446744073709551615⟩ := by decide +kernel

/-- C07: `TileFromString(Tilestr(t)) = t` when no field prints with a minus sign. -/
theorem C07_tileFromString_tilestr (t : TileID) (hv : t.Valid) (hx : 0 ≤ t.X) (hy : 0 ≤ t.Y)
    (hz : t.Z < 9223372036854775808) : tileFromString (tilestr t) = some t := by
  have hvx := i64_of_lt hv.1
  have hvy := i64_of_lt hv.2.1
  have hvz : i64 (t.Z : Int) = t.Z := i64_of_lt (by unfold IsI64; omega)
  have nd : '-' ∉ tilestr t := by
    unfold tilestr
    rw [hvx, hvy, hvz]
    intro h
    simp only [List.mem_append, List.mem_cons] at h
    have n1 := dash_notin_itoa hx
    have n2 := dash_notin_itoa hy
    have n3 := dash_notin_itoa (n := (t.Z : Int)) (by omega)
    rcases h with (h | h | h) | h | h
    · exact n1 h
    · exact absurd h (by decide)
    · exact n2 h
    · exact absurd h (by decide)
    · exact n3 h
  have sl : '/' ∈ tilestr t := by unfold tilestr; simp
  unfold tileFromString
  simp only [nd, sl, if_true, if_false]
  exact C07_strtile_tilestr t hv

example : tileFromString (tilestr ⟨486, 332, 10⟩) = some ⟨486, 332, 10⟩ := by decide +kernel

/-- C07: `TileFromString(TilestrFile(t)) = t` likewise. -/
theorem C07_tileFromString_tilestrFile (t : TileID) (hv : t.Valid) (hx : 0 ≤ t.X) (hy : 0 ≤ t.Y)
    (hz : t.Z < 9223372036854775808) : tileFromString (tilestrFile t) = some t := by
  have hvz : i64 (t.Z : Int) = t.Z := i64_of_lt (by unfold IsI64; omega)
  have sl : '-' ∈ tilestrFile t := by unfold tilestrFile; simp
  unfold tileFromString
  simp only [sl, if_true]
  unfold tilestrFile
  have n1 : '-' ∉ itoa (i64 t.X) := dash_notin_itoa (by rw [i64_of_lt hv.1]; exact hx)
  have n2 : '-' ∉ itoa (i64 t.Y) := dash_notin_itoa (by rw [i64_of_lt hv.2.1]; exact hy)
  have n3 : '-' ∉ itoa (i64 t.Z) := dash_notin_itoa (by rw [hvz]; omega)
  rw [List.append_assoc, List.cons_append, split_append _ _ _ n1, split_append _ _ _ n2, split_no_sep _ _ n3]
  exact tilestr_fields t hv

example : tilestrFile ⟨486, 332, 10⟩ = "486-332-10".toList ∧
    tileFromString "486-332-10".toList = some ⟨486, 332, 10⟩ := by decide +kernel

/-- C07, the excluded case: with a negative coordinate `TileFromString` splits at the sign and misreads the id. -/
theorem C07_tileFromString_negative_misread :
    tileFromString (tilestr ⟨-5, 6, 7⟩) = none ∧ tileFromString (tilestrFile ⟨-5, 6, 7⟩) = some ⟨0, 5, 6⟩ := by
  decide +kernel

theorem i64_inj {a b : Nat} (ha : IsU64 a) (hb : IsU64 b) (h : i64 a = i64 b) : a = b := by
  rw [← u64_i64 a ha, ← u64_i64 b hb, h]

/-- C08: `IsEqual` is equality of all three fields. -/
theorem C08_isEqual_iff (a b : TileID) (ha : a.Valid) (hb : b.Valid) : isEqual a b = true ↔ a = b := by
  obtain ⟨ax, ay, az⟩ := ha
  obtain ⟨bx, by_, bz⟩ := hb
  unfold isEqual
  rw [i64_of_lt ax, i64_of_lt ay, i64_of_lt bx, i64_of_lt by_]
  constructor
  · intro h
    simp only [Bool.and_eq_true, beq_iff_eq] at h
    obtain ⟨⟨h1, h2⟩, h3⟩ := h
    obtain ⟨X, Y, Z⟩ := a
    obtain ⟨X', Y', Z'⟩ := b
    simp only at *
    rw [h1, h2, i64_inj az bz h3]
  · rintro rfl; simp

example : isEqual ⟨1, 2, 18446744073709551615⟩ ⟨1, 2, 18446744073709551615⟩ = true ∧
    isEqual ⟨1, 2, 18446744073709551615⟩ ⟨1, 2, 1⟩ = false := by decide

end Verif.Tid
