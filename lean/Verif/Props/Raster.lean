import Verif.Proof.Raster
import Verif.Model.F64

/-!
# C20–C23: elevation tiles (raster/raster.go)
-/
namespace Verif.Raster

/-- Specification: clamp a signed pixel coordinate into `[0, dim)`. -/
def clampZ (dim : Nat) (x : Int) : Nat := (max 0 (min x (dim - 1))).toNat

/-! ## C20 -/

/-- **C20.** For every even number of pixels (at least two) `NewDEMData` succeeds, takes
`dim = ⌊√n⌋`, and the cell for every `(x, y)` of the tile *and its one-pixel border*
(`-1 ≤ x, y ≤ dim`) holds the input pixel at the coordinates clamped into the tile. -/
theorem C20_border_clamps (data : List Px) (enc : Int) (heven : data.length % 2 = 0)
    (hpos : data ≠ []) :
    ∃ d, newDEM data enc = some (some d) ∧ d.dim = Nat.sqrt data.length ∧ d.encoding = enc ∧
      d.data.length = (d.dim + 2) * (d.dim + 2) ∧ 1 ≤ d.dim ∧
      ∀ x y : Int, -1 ≤ x → x ≤ d.dim → -1 ≤ y → y ≤ d.dim →
        ∃ p, data[clampZ d.dim y * d.dim + clampZ d.dim x]? = some p ∧
          getI d.data (d.idx x y) = some p := by
  have hlen : 0 < data.length := List.length_pos_of_ne_nil hpos
  have hd : 1 ≤ Nat.sqrt data.length := by
    rw [Nat.le_sqrt']; omega
  have hsq : Nat.sqrt data.length * Nat.sqrt data.length ≤ data.length := Nat.sqrt_le _
  obtain ⟨i1, i2, i3, e1, e2, e3, g⟩ := fill_good data (Nat.sqrt data.length) hd hsq
    (List.replicate ((Nat.sqrt data.length + 2) * (Nat.sqrt data.length + 2)) Px.zero) (by simp)
  generalize hdim : Nat.sqrt data.length = dim at *
  refine ⟨⟨enc, dim, dim + 2, i3⟩, ?_, rfl, rfl, g.1, hd, ?_⟩
  · simp only [newDEM, heven, hdim, e1, e2, e3]; simp
  · intro x y hx1 hx2 hy1 hy2
    have hx2' : x ≤ dim := hx2
    have hy2' : y ≤ dim := hy2
    have hc := g.2 (y + 1).toNat (x + 1).toNat (by omega) (by omega) trivial
    have k1 : clampIx dim (y + 1).toNat = clampZ dim y := by
      unfold clampIx clampZ; omega
    have k2 : clampIx dim (x + 1).toNat = clampZ dim x := by
      unfold clampIx clampZ; omega
    have hb : clampZ dim y < dim ∧ clampZ dim x < dim := by
      unfold clampZ; omega
    have hin : clampZ dim y * dim + clampZ dim x < data.length :=
      lt_of_lt_of_le (cell_lt hb.1 hb.2) hsq
    refine ⟨_, List.getElem?_eq_getElem hin, ?_⟩
    have hidx : DEM.idx ⟨enc, dim, dim + 2, i3⟩ x y
        = (((y + 1).toNat * (dim + 2) + (x + 1).toNat : Nat) : Int) := by
      simp only [DEM.idx]
      push_cast
      rw [Int.toNat_of_nonneg (by omega), Int.toNat_of_nonneg (by omega)]
    rw [hidx]
    simp only [getI]
    rw [if_neg (by omega), Int.toNat_natCast, hc]
    simp only [want, k1, k2, List.getElem?_eq_getElem hin, Option.getD_some]

/-- **C20.** In particular every inside pixel is stored unchanged at its own place. -/
theorem C20_inside_unchanged (data : List Px) (enc : Int) (dim : Nat)
    (hlen : data.length = dim * dim) (heven : data.length % 2 = 0) (hdim : 1 ≤ dim) :
    ∃ d, newDEM data enc = some (some d) ∧ d.dim = dim ∧
      ∀ x y : Nat, x < dim → y < dim → getI d.data (d.idx x y) = data[y * dim + x]? := by
  have hne : data ≠ [] := by
    intro h; rw [h] at hlen; simp at hlen; omega
  obtain ⟨d, h1, h2, _, _, _, h6⟩ := C20_border_clamps data enc heven hne
  have hd : d.dim = dim := by rw [h2, hlen, Nat.sqrt_eq]
  refine ⟨d, h1, hd, ?_⟩
  intro x y hx hy
  obtain ⟨p, hp1, hp2⟩ := h6 x y (by omega) (by rw [hd]; omega) (by omega) (by rw [hd]; omega)
  have c1 : clampZ d.dim x = x := by unfold clampZ; rw [hd]; omega
  have c2 : clampZ d.dim y = y := by unfold clampZ; rw [hd]; omega
  rw [c1, c2, hd] at hp1
  rw [hp2, hp1]

/-- **C20 (limit).** Every tile with an odd number of pixels — such as any odd `dim` — is refused
with nil instead of being loaded. -/
theorem C20_odd_is_nil (data : List Px) (enc : Int) (h : data.length % 2 = 1) :
    newDEM data enc = some none := by
  simp [newDEM, h]

/-- **C20.** `NewDEMData` never panics. -/
theorem C20_never_panics (data : List Px) (enc : Int) : newDEM data enc ≠ none := by
  by_cases h : data.length % 2 = 0
  · by_cases hne : data = []
    · subst hne; intro h; revert h
      simp [newDEM, fillInner, fillSides, fillTopBottom, loop, cp, wr, List.range_succ]
    · obtain ⟨d, h1, _⟩ := C20_border_clamps data enc h hne
      rw [h1]; simp
  · rw [C20_odd_is_nil data enc (by omega)]; simp

/-- **C20.** `Get(x, y)` decodes the clamped pixel, for every arithmetic. -/
theorem C20_get (rnd : ℚ → ℚ) (data : List Px) (enc : Int) (heven : data.length % 2 = 0)
    (hpos : data ≠ []) :
    ∃ d, newDEM data enc = some (some d) ∧
      ∀ x y : Int, -1 ≤ x → x ≤ d.dim → -1 ≤ y → y ≤ d.dim →
        ∃ p, data[clampZ d.dim y * d.dim + clampZ d.dim x]? = some p ∧
          d.get rnd x y = some (decode rnd (unpackOf rnd enc) p) := by
  obtain ⟨d, h1, _, h3, _, _, h6⟩ := C20_border_clamps data enc heven hpos
  refine ⟨d, h1, fun x y a b c e => ?_⟩
  obtain ⟨p, hp1, hp2⟩ := h6 x y a b c e
  exact ⟨p, hp1, by simp only [DEM.get, hp2, h3]⟩

theorem getElem?_grid {α β : Type*} (xs : List α) (ys : List β) (i j : Nat) (hi : i < xs.length)
    (hj : j < ys.length) :
    (xs.flatMap fun x => ys.map fun y => (x, y))[i * ys.length + j]? = some (xs[i], ys[j]) := by
  induction xs generalizing i with
  | nil => simp at hi
  | cons a t ih =>
    rw [List.flatMap_cons]
    cases i with
    | zero =>
      rw [List.getElem?_append_left (by simpa using hj)]
      simp [List.getElem?_eq_getElem hj]
    | succ i =>
      rw [List.getElem?_append_right (by simp; nlinarith)]
      have : (i + 1) * ys.length + j - (List.map (fun y => (a, y)) ys).length
          = i * ys.length + j := by
        simp; rw [Nat.add_mul]; omega
      rw [this, ih i (by simpa using hi)]
      simp

/-- **C20.** `GetData` of a square tile has one entry per pixel and lists the columns one after the
other: entry `x*dim + y` is the height of pixel `(x, y)`, that is of input pixel `y*dim + x`. The
result is therefore the *transpose* of the row-major input. -/
theorem C20_getData_columns (rnd : ℚ → ℚ) (data : List Px) (enc : Int) (dim : Nat)
    (hlen : data.length = dim * dim) (heven : data.length % 2 = 0) (hdim : 1 ≤ dim) :
    ∃ d out, newDEM data enc = some (some d) ∧ d.getData rnd = some out ∧
      out.length = data.length ∧
      ∀ x y : Nat, x < dim → y < dim →
        out[x * dim + y]? = (data[y * dim + x]?).map (decode rnd (unpackOf rnd enc)) := by
  obtain ⟨d, h1, hd, hin⟩ := C20_inside_unchanged data enc dim hlen heven hdim
  have henc : d.encoding = enc := by
    have hne : data ≠ [] := by intro h; rw [h] at hlen; simp at hlen; omega
    obtain ⟨d', h1', _, h3, _⟩ := C20_border_clamps data enc heven hne
    rw [h1] at h1'; cases h1'; exact h3
  let H : Nat × Nat → ℚ := fun p =>
    ((data[p.2 * dim + p.1]?).map (decode rnd (unpackOf rnd enc))).getD 0
  let L : List (Nat × Nat) :=
    (List.range d.dim).flatMap fun x => (List.range d.dim).map fun y => (x, y)
  have hget : ∀ p ∈ L, d.get rnd p.1 p.2 = some (H p) := by
    intro p hp
    have hp' : p.1 < dim ∧ p.2 < dim := by
      simp only [L, List.mem_flatMap, List.mem_map, List.mem_range, hd] at hp
      obtain ⟨a, ha, b, hb, rfl⟩ := hp
      exact ⟨ha, hb⟩
    have h2 := hin p.1 p.2 hp'.1 hp'.2
    have hlt : p.2 * dim + p.1 < data.length := by rw [hlen]; exact cell_lt hp'.2 hp'.1
    rw [List.getElem?_eq_getElem hlt] at h2
    simp only [DEM.get, h2, henc, H, List.getElem?_eq_getElem hlt, Option.map_some,
      Option.getD_some]
  have hm : L.mapM (fun (p : Nat × Nat) => d.get rnd p.1 p.2) = some (L.map H) := by
    clear_value L
    clear hin h1
    induction L with
    | nil => simp
    | cons a t ih =>
      rw [List.mapM_cons, hget a (by simp), ih (fun p hp => hget p (by simp [hp]))]
      simp
  refine ⟨d, L.map H, h1, hm, ?_, ?_⟩
  · simp [L, hd, hlen]
  · intro x y hx hy
    have hg := getElem?_grid (List.range d.dim) (List.range d.dim) x y (by simp [hd, hx])
      (by simp [hd, hy])
    simp only [List.length_range, List.getElem_range] at hg
    rw [hd] at hg
    have hlt : y * dim + x < data.length := by rw [hlen]; exact cell_lt hy hx
    rw [List.getElem?_map]
    simp only [L, hd]
    rw [hg]
    simp [H, List.getElem?_eq_getElem hlt]

/-- Witness: a 2×2 tile. -/
def tile22 : List Px := [⟨1, 0, 0, 255⟩, ⟨2, 0, 0, 255⟩, ⟨3, 0, 0, 255⟩, ⟨4, 0, 0, 255⟩]

example : tile22.length = 2 * 2 ∧ tile22.length % 2 = 0 ∧ tile22 ≠ [] := by decide

/-- The whole 4×4 stored array of the witness: corners included. -/
example : (newDEM tile22 0).map (Option.map fun d => d.data.map (·.r.val)) =
    some (some [1, 1, 2, 2, 1, 1, 2, 2, 3, 3, 4, 4, 3, 3, 4, 4]) := by decide +kernel

/-! ## C21 -/

/-- Specification: the number the three colour bytes spell. -/
def code (p : Px) : Nat := 65536 * p.r.val + 256 * p.g.val + p.b.val

/-- The height terrain-RGB assigns to a code, in exact arithmetic. -/
def mapboxHeight (n : Nat) : ℚ := n / 10 - 10000

theorem decode_mapbox_exact (p : Px) :
    decode id (unpackMapbox id) p = mapboxHeight (code p) := by
  simp only [decode, unpackMapbox, mapboxHeight, code, id]
  push_cast
  ring

theorem toByte_val (v : Int) : ((toByte v).val : Int) = v % 256 := by
  simp only [toByte]; omega

theorem floor_div_div (v : ℚ) (k : Nat) (hk : 0 < k) : ⌊v / k⌋ = ⌊v⌋ / (k : Int) := by
  rw [Int.floor_div_natCast]

theorem trunc_nonneg {q : ℚ} (h : 0 ≤ q) : trunc q = ⌊q⌋ := by simp [trunc, h]

theorem frac_times (v : ℚ) (k : ℤ) (hk : 0 < k) :
    ⌊(v / k - (⌊v / k⌋ : ℤ)) * k⌋ = ⌊v⌋ % k := by
  have hk' : (k : ℚ) ≠ 0 := by exact_mod_cast hk.ne'
  have h1 : (v / k - (⌊v / k⌋ : ℤ)) * k = v - ((⌊v / k⌋ * k : ℤ) : ℚ) := by
    push_cast; field_simp
  rw [h1, Int.floor_sub_intCast]
  have h2 : ⌊v / (k : ℚ)⌋ = ⌊v⌋ / k := by
    have := Int.floor_div_natCast v k.toNat
    have hkk : ((k.toNat : ℕ) : ℤ) = k := Int.toNat_of_nonneg hk.le
    have hkq : ((k.toNat : ℕ) : ℚ) = (k : ℚ) := by exact_mod_cast hkk
    rw [hkq, hkk] at this
    exact this
  rw [h2, Int.emod_def]; ring

/-- The packed bytes spell the integer part of `val` modulo 2^24 (exact arithmetic). -/
theorem packVal_exact (v : ℚ) (h0 : 0 ≤ v) :
    (packMapboxVal id v).r.val = (⌊v⌋ / 65536 % 256).toNat ∧
    (packMapboxVal id v).g.val = (⌊v⌋ / 256 % 256).toNat ∧
    (packMapboxVal id v).b.val = (⌊v⌋ % 256).toNat ∧ (packMapboxVal id v).a = 255 := by
  have e256 : (256 : ℚ) = ((256 : ℤ) : ℚ) := by norm_num
  have nn : ∀ w : ℚ, 0 ≤ (w / 256 - fl (w / 256)) * 256 := by
    intro w
    have := Int.floor_le (w / 256)
    unfold fl
    nlinarith
  have key : ∀ w : ℚ, trunc ((w / 256 - fl (w / 256)) * 256) = ⌊w⌋ % 256 := by
    intro w
    rw [trunc_nonneg (nn w)]
    unfold fl
    have := frac_times w 256 (by norm_num)
    push_cast at this
    exact this
  have d1 : ⌊v / 256⌋ = ⌊v⌋ / 256 := by
    have := Int.floor_div_natCast v 256; push_cast at this; exact this
  have d2 : ⌊fl (v / 256) / 256⌋ = ⌊v⌋ / 65536 := by
    have := Int.floor_div_natCast (fl (v / 256)) 256
    push_cast at this
    rw [this]; unfold fl; rw [Int.floor_intCast, d1, Int.ediv_ediv_of_nonneg (by norm_num)]; norm_num
  refine ⟨?_, ?_, ?_, rfl⟩
  · simp only [packMapboxVal, id]
    rw [key (fl (fl (v / 256) / 256))]
    simp only [toByte, fl, Int.floor_intCast]
    have := d2
    simp only [fl] at this
    rw [this]; omega
  · simp only [packMapboxVal, id]
    rw [key (fl (v / 256))]
    simp only [toByte, fl, Int.floor_intCast, d1]; omega
  · simp only [packMapboxVal, id]
    rw [key v]
    simp only [toByte]; omega

theorem packVal_code (v : ℚ) (h0 : 0 ≤ v) (h1 : v < 16777216) :
    (code (packMapboxVal id v) : Int) = ⌊v⌋ := by
  obtain ⟨hr, hg, hb, _⟩ := packVal_exact v h0
  have hf0 : 0 ≤ ⌊v⌋ := Int.floor_nonneg.mpr h0
  have hf1 : ⌊v⌋ < 16777216 := by
    rw [Int.floor_lt]; exact_mod_cast h1
  unfold code
  rw [hr, hg, hb]
  push_cast
  omega

/-- **C21.** For every height in `[-10000, 1667721.6)`, encoding and decoding gives a height in
`(h - 0.1, h]`: never above, and less than one step below (exact arithmetic). -/
theorem C21_precision (h : ℚ) (h0 : -10000 ≤ h) (h1 : h < 16677216 / 10) :
    h - 1 / 10 < decode id (unpackMapbox id) (packMapbox id h) ∧
    decode id (unpackMapbox id) (packMapbox id h) ≤ h := by
  have hv : mapboxVal id h = (h + 10000) * 10 := by
    simp only [mapboxVal, unpackMapbox, id]; ring
  have hc := packVal_code ((h + 10000) * 10) (by linarith) (by linarith)
  rw [decode_mapbox_exact]
  have hp : packMapbox id h = packMapboxVal id ((h + 10000) * 10) := by
    rw [packMapbox, hv]
  rw [hp, mapboxHeight]
  have hcq : ((code (packMapboxVal id ((h + 10000) * 10)) : ℕ) : ℚ)
      = ((⌊(h + 10000) * 10⌋ : ℤ) : ℚ) := by exact_mod_cast hc
  rw [hcq]
  have a := Int.floor_le ((h + 10000) * 10)
  have b := Int.lt_floor_add_one ((h + 10000) * 10)
  constructor <;> linarith

/-- **C21.** The encoding of a height is the largest code whose height does not exceed it. -/
theorem C21_largest_code (h : ℚ) (h0 : -10000 ≤ h) (h1 : h < 16677216 / 10) (n : Nat) :
    mapboxHeight n ≤ h ↔ n ≤ code (packMapbox id h) := by
  have hv : mapboxVal id h = (h + 10000) * 10 := by
    simp only [mapboxVal, unpackMapbox, id]; ring
  have hc := packVal_code ((h + 10000) * 10) (by linarith) (by linarith)
  rw [packMapbox, hv]
  have : n ≤ code (packMapboxVal id ((h + 10000) * 10)) ↔ (n : ℤ) ≤ ⌊(h + 10000) * 10⌋ := by
    rw [← hc]; omega
  rw [this, Int.le_floor, mapboxHeight]
  push_cast
  constructor <;> intro <;> linarith

theorem px_ext_code {p q : Px} (hc : code p = code q) (ha : p.a = q.a) : p = q := by
  have h1 := p.r.isLt; have h2 := p.g.isLt; have h3 := p.b.isLt
  have h4 := q.r.isLt; have h5 := q.g.isLt; have h6 := q.b.isLt
  unfold code at hc
  cases p; cases q
  simp only [Px.mk.injEq] at *
  refine ⟨Fin.ext ?_, Fin.ext ?_, Fin.ext ?_, ha⟩ <;> omega

/-- **C21.** In exact arithmetic packing the height of any opaque pixel gives that pixel back. -/
theorem C21_pixel_roundtrip (p : Px) (ha : p.a = 255) :
    packMapbox id (decode id (unpackMapbox id) p) = p := by
  rw [decode_mapbox_exact]
  have hlt : code p < 16777216 := by
    have h1 := p.r.isLt; have h2 := p.g.isLt; have h3 := p.b.isLt
    unfold code; omega
  have hv : mapboxVal id (mapboxHeight (code p)) = (code p : ℚ) := by
    simp only [mapboxVal, unpackMapbox, mapboxHeight, id]; ring
  have hq : ((code p : ℕ) : ℚ) < 16777216 := by exact_mod_cast hlt
  have hc := packVal_code (code p : ℚ) (by positivity) hq
  rw [packMapbox, hv]
  apply px_ext_code
  · rw [Int.floor_natCast] at hc; exact_mod_cast hc
  · rw [ha]; rfl

/-- **C21 (false for float64).** With float64 rounding the round trip of a pixel fails: the pixel
(0,0,3) decodes to a height that packs to (0,0,2). -/
theorem C21_float_pixel_roundtrip_false :
    ∃ p : Px, p.a = 255 ∧
      packMapbox F64.rnd (decode F64.rnd (unpackMapbox F64.rnd) p) ≠ p :=
  ⟨⟨0, 0, 3, 255⟩, rfl, by decide +kernel⟩

/-- **C21 (false for float64).** With float64 rounding the loss can exceed one 0.1 m step. -/
theorem C21_float_precision_false :
    ∃ h : ℚ, F64.rnd h = h ∧ -10000 ≤ h ∧ h < 16677216 / 10 ∧
      ¬ (h - 1 / 10 < decode F64.rnd (unpackMapbox F64.rnd) (packMapbox F64.rnd h)) :=
  ⟨F64.rnd (-99996 / 10), by decide +kernel, by decide +kernel, by decide +kernel,
    by decide +kernel⟩

example : -10000 ≤ (88488 / 10 : ℚ) ∧ (88488 / 10 : ℚ) < 16677216 / 10 ∧
    packMapbox id (88488 / 10) = ⟨2, 224, 72, 255⟩ := by decide +kernel

/-! ## C22 -/

theorem decode_terrarium_exact (p : Px) :
    decode id (unpackTerrarium id) p = 256 * p.r.val + p.g.val + p.b.val / 256 - 32768 := by
  simp only [decode, unpackTerrarium, id]
  ring

/-- **C20.** What the encodings mean, exact arithmetic: encoding 0 is Mapbox, every other one Terrarium. -/
theorem C20_encodings (p : Px) (enc : Int) :
    decode id (unpackOf id enc) p = if enc = 0 then (65536 * (p.r.val : ℚ) + 256 * (p.g.val : ℚ) + (p.b.val : ℚ)) / 10 - 10000
      else 256 * (p.r.val : ℚ) + (p.g.val : ℚ) + (p.b.val : ℚ) / 256 - 32768 := by
  unfold unpackOf
  split
  · rw [decode_mapbox_exact, mapboxHeight, code]; push_cast; ring
  · exact decode_terrarium_exact p

/-- What `TerrariumPacker.Pack` writes (exact arithmetic). -/
theorem packTerrarium_exact (h : ℚ) (h0 : -32768 ≤ h) (h1 : h < 32768) :
    (256 * (packTerrarium id h).r.val + (packTerrarium id h).g.val : Int) = ⌊h + 32768⌋ ∧
    ((packTerrarium id h).b.val : Int) = ⌊(h + 32768) * 256⌋ % 25 := by
  have hf0 : 0 ≤ ⌊h + 32768⌋ := Int.floor_nonneg.mpr (by linarith)
  have hf1 : ⌊h + 32768⌋ < 65536 := by
    rw [Int.floor_lt]; push_cast; linarith
  have hv : (unpackTerrarium id).2.2.2 = 32768 := rfl
  have d1 : ⌊(h + 32768) / 256⌋ = ⌊h + 32768⌋ / 256 := by
    have := Int.floor_div_natCast (h + 32768) 256; push_cast at this; exact this
  have hr : trunc (fl ((h + 32768) / 256)) = ⌊h + 32768⌋ / 256 := by
    rw [trunc_nonneg]
    · simp only [fl, Int.floor_intCast, d1]
    · simp only [fl]
      have : (0 : ℤ) ≤ ⌊(h + 32768) / 256⌋ := Int.floor_nonneg.mpr (by linarith)
      exact_mod_cast this
  have hg : trunc (h + 32768) = ⌊h + 32768⌋ := trunc_nonneg (by linarith)
  have hb : trunc ((h + 32768) * 256) = ⌊(h + 32768) * 256⌋ := trunc_nonneg (by linarith)
  have hb0 : 0 ≤ ⌊(h + 32768) * 256⌋ := Int.floor_nonneg.mpr (by linarith)
  simp only [packTerrarium, hv, id, hr, hg, hb, toByte_val]
  rw [Int.tmod_eq_emod_of_nonneg hf0, Int.tmod_eq_emod_of_nonneg hb0]
  omega

/-- **C22.** The decoded height is above `h - 1` and at most `h + 24/256`: the whole
metres are right and the fraction is not.  (Missing: the claimed precision of 1/256 m, which is
false — see below.) -/
theorem C22_within_one_metre (h : ℚ) (h0 : -32768 ≤ h) (h1 : h < 32768) :
    h - 1 < decode id (unpackTerrarium id) (packTerrarium id h) ∧
    decode id (unpackTerrarium id) (packTerrarium id h) ≤ h + 24 / 256 := by
  obtain ⟨e1, e2⟩ := packTerrarium_exact h h0 h1
  rw [decode_terrarium_exact]
  have e1' : (256 * (packTerrarium id h).r.val + (packTerrarium id h).g.val : ℚ)
      = (⌊h + 32768⌋ : ℤ) := by exact_mod_cast e1
  have hb : (packTerrarium id h).b.val ≤ 24 := by omega
  have hb' : ((packTerrarium id h).b.val : ℚ) ≤ 24 := by exact_mod_cast hb
  have hb0 : (0 : ℚ) ≤ ((packTerrarium id h).b.val : ℚ) := by positivity
  have a := Int.floor_le (h + 32768)
  have b := Int.lt_floor_add_one (h + 32768)
  rw [e1']
  constructor <;> linarith

/-- **C22.** Exactly when the claimed precision does hold: with `m` whole metres above -32768 and
`f` whole 1/256ths beyond them, iff `(6·m + f) mod 25` is `f`, or is `f + 1` and `h` is not itself a
multiple of 1/256. -/
theorem C22_precise_iff (h : ℚ) (h0 : -32768 ≤ h) (h1 : h < 32768) (m f : ℤ)
    (hm : m = ⌊h + 32768⌋) (hf : f = ⌊(h + 32768) * 256⌋ - 256 * m) :
    |decode id (unpackTerrarium id) (packTerrarium id h) - h| < 1 / 256 ↔
      (6 * m + f) % 25 = f ∨
      ((6 * m + f) % 25 = f + 1 ∧ (h + 32768) * 256 ≠ ⌊(h + 32768) * 256⌋) := by
  obtain ⟨e1, e2⟩ := packTerrarium_exact h h0 h1
  rw [decode_terrarium_exact]
  have e1' : (256 * (packTerrarium id h).r.val + (packTerrarium id h).g.val : ℚ) = (m : ℤ) := by
    rw [hm]; exact_mod_cast e1
  have e2' : (((packTerrarium id h).b.val : ℕ) : ℚ) = (((6 * m + f) % 25 : ℤ) : ℚ) := by
    have : ((packTerrarium id h).b.val : Int) = (6 * m + f) % 25 := by rw [e2]; omega
    exact_mod_cast this
  rw [e1', e2']
  have a := Int.floor_le ((h + 32768) * 256)
  have b := Int.lt_floor_add_one ((h + 32768) * 256)
  have hF : (⌊(h + 32768) * 256⌋ : ℤ) = f + 256 * m := by omega
  rw [hF] at a b ⊢
  push_cast at a b ⊢
  generalize hk : (6 * m + f) % 25 = k
  rw [abs_lt]
  constructor
  · rintro ⟨l, u⟩
    have l2 : (f : ℚ) < k + 1 := by linarith
    have l3 : (k : ℚ) < f + 2 := by linarith
    have l2' : f < k + 1 := by exact_mod_cast l2
    have l3' : k < f + 2 := by exact_mod_cast l3
    rcases (by omega : k = f ∨ k = f + 1) with h | h
    · exact Or.inl h
    · refine Or.inr ⟨h, fun he => ?_⟩
      subst h; push_cast at u; linarith
  · rintro (he | ⟨he, hne⟩)
    · subst he; constructor <;> linarith
    · have : (f : ℚ) + 256 * m < (h + 32768) * 256 := lt_of_le_of_ne a (Ne.symm hne)
      subst he; push_cast; constructor <;> linarith

/-- **C22 (false).** The claim fails: 255/256 m above the base comes back almost a metre low. -/
theorem C22_false :
    ¬ ∀ h : ℚ, -32768 ≤ h → h < 32768 →
      |decode id (unpackTerrarium id) (packTerrarium id h) - h| ≤ 1 / 256 := by
  intro hc
  have := hc (-32768 + 255 / 256) (by norm_num) (by norm_num)
  revert this
  decide +kernel

/-- **C22 (false).** Even whole metres do not survive, with float64 arithmetic too: 1 m above the
base gets the third byte 6. -/
theorem C22_false_whole_metre :
    decode F64.rnd (unpackTerrarium F64.rnd) (packTerrarium F64.rnd (-32767)) = -32767 + 6 / 256 ∧
    decode id (unpackTerrarium id) (packTerrarium id (-32767)) = -32767 + 6 / 256 := by
  decide +kernel

/-! ## C23 -/

/-- **C23 (false).** A neighbour of the same size — the only kind that fits — is ignored: nothing
is copied, for every tile, neighbour and direction. -/
theorem C23_same_size_ignored (d nb : DEM) (dx dy : Int) (h : d.dim = nb.dim) :
    backfill d nb dx dy = some d := by
  simp [backfill, h]

/-- **C23 (false), concretely.** Two loadable 2×2 tiles: after backfilling the right neighbour the
border cell still holds this tile's own pixel and not the neighbour's. -/
theorem C23_false : ∃ a b d nb : _, newDEM a 0 = some (some d) ∧ newDEM b 0 = some (some nb) ∧
    d.dim = nb.dim ∧
    ∃ d', backfill d nb 1 0 = some d' ∧
      getI d'.data (d'.idx d.dim 0) ≠ getI nb.data (nb.idx 0 0) :=
  ⟨tile22, List.replicate 4 ⟨9, 9, 9, 255⟩,
    ((newDEM tile22 0).getD none).getD ⟨0, 0, 0, []⟩,
    ((newDEM (List.replicate 4 ⟨9, 9, 9, 255⟩) 0).getD none).getD ⟨0, 0, 0, []⟩,
    by decide +kernel, by decide +kernel, by decide +kernel, _,
    C23_same_size_ignored _ _ _ _ (by decide +kernel), by decide +kernel⟩

/-- A position inside the tile proper. -/
def Inside (d : DEM) (x y : Int) : Prop := 0 ≤ x ∧ x < d.dim ∧ 0 ≤ y ∧ y < d.dim

theorem backCell_frame {d nb : DEM} {ox oy x y : Int} {img img' : List Px}
    (h : backCell d nb ox oy img x y = some img') (i : Nat) (hi : (i : Int) ≠ d.idx x y) :
    img'[i]? = img[i]? ∧ img'.length = img.length := by
  unfold backCell at h
  split at h
  · cases h
  · unfold wrI at h
    split at h
    · cases h
    · unfold wr at h
      split at h
      · cases h
        refine ⟨List.getElem?_set_ne (by omega), by simp⟩
      · cases h

/-- **C23.** Whatever the neighbour, backfilling towards one of the eight neighbours never changes
a pixel inside the tile, nor the size of the array. -/
theorem C23_inside_unchanged (d nb : DEM) (hs : d.stride = d.dim + 2) (dx dy : Int)
    (hdx : dx = -1 ∨ dx = 0 ∨ dx = 1) (hdy : dy = -1 ∨ dy = 0 ∨ dy = 1)
    (hne : ¬ (dx = 0 ∧ dy = 0)) (d' : DEM) (h : backfill d nb dx dy = some d') :
    d'.dim = d.dim ∧ d'.stride = d.stride ∧ d'.data.length = d.data.length ∧
      ∀ x y, Inside d x y → getI d'.data (d.idx x y) = getI d.data (d.idx x y) := by
  unfold backfill at h
  split at h
  · cases h; exact ⟨rfl, rfl, rfl, fun _ _ _ => rfl⟩
  · unfold backfillLoop at h
    dsimp only at h
    split at h
    · cases h
    · rename_i img himg
      cases h
      refine ⟨rfl, rfl, ?_⟩
      let P : List Px → Prop := fun s => s.length = d.data.length ∧
        ∀ x y, Inside d x y → getI s (d.idx x y) = getI d.data (d.idx x y)
      refine foldlM_preserve _ P _ _ _ ?_ ⟨rfl, fun _ _ _ => rfl⟩ himg
      intro y hy s s' hP hs'
      refine foldlM_preserve _ P _ _ _ ?_ hP hs'
      intro x hx s1 s2 hP1 h2
      rw [mem_irange] at hx hy
      have hout : x < 0 ∨ (d.dim : Int) ≤ x ∨ y < 0 ∨ (d.dim : Int) ≤ y := by
        simp only [backRange] at hx hy
        rcases hdx with rfl | rfl | rfl <;> rcases hdy with rfl | rfl | rfl <;>
          simp at hx hy hne ⊢ <;> omega
      have hbx : -1 ≤ x ∧ x ≤ d.dim ∧ -1 ≤ y ∧ y ≤ d.dim := by
        simp only [backRange] at hx hy
        rcases hdx with rfl | rfl | rfl <;> rcases hdy with rfl | rfl | rfl <;>
          simp at hx hy hne ⊢ <;> omega
      have hidx : ∀ x' y', Inside d x' y' → d.idx x' y' ≠ d.idx x y := by
        intro x' y' hin he
        obtain ⟨a1, a2, a3, a4⟩ := hin
        simp only [DEM.idx, hs] at he
        have e1 : (y' + 1) * ((d.dim + 2 : Nat) : Int) + (x' + 1)
            = (((y' + 1).toNat * (d.dim + 2) + (x' + 1).toNat : Nat) : Int) := by
          push_cast
          rw [Int.toNat_of_nonneg (by omega), Int.toNat_of_nonneg (by omega)]
        have e2 : (y + 1) * ((d.dim + 2 : Nat) : Int) + (x + 1)
            = (((y + 1).toNat * (d.dim + 2) + (x + 1).toNat : Nat) : Int) := by
          push_cast
          rw [Int.toNat_of_nonneg (by omega), Int.toNat_of_nonneg (by omega)]
        rw [e1, e2] at he
        have := cell_inj (by omega) (by omega) (Int.ofNat.inj he)
        omega
      have fr : ∀ i : Nat, (i : Int) ≠ d.idx x y → s2[i]? = s1[i]? ∧ s2.length = s1.length :=
        fun i hi => backCell_frame h2 i hi
      refine ⟨?_, ?_⟩
      · rw [← hP1.1]
        by_cases h0 : ((0 : Nat) : Int) = d.idx x y
        · exact (fr 1 (by rw [← h0]; simp)).2
        · exact (fr 0 h0).2
      · intro x' y' hin
        rw [← hP1.2 x' y' hin]
        unfold getI
        split
        · rfl
        · rename_i hneg
          exact (fr _ (by rw [Int.toNat_of_nonneg (by omega)]; exact hidx x' y' hin)).1

/-- Specification: the border cells of a tile that face its neighbour in direction `(dx, dy)`. -/
def Facing (d : DEM) (dx dy x y : Int) : Prop :=
  (dx = -1 ∧ x = -1 ∨ dx = 1 ∧ x = d.dim ∨ dx = 0 ∧ 0 ≤ x ∧ x < d.dim) ∧
  (dy = -1 ∧ y = -1 ∨ dy = 1 ∧ y = d.dim ∨ dy = 0 ∧ 0 ≤ y ∧ y < d.dim)

theorem foldlM_reach {α β : Type*} (f : β → α → Option β) (P : β → Prop) (a : α) :
    ∀ (l : List α) (s s' : β), a ∈ l → (∀ b ∈ l, ∀ s s', P s → f s b = some s' → P s') →
      (∀ s s', f s a = some s' → P s') → l.foldlM f s = some s' → P s'
  | [], _, _, hm, _, _, _ => by cases hm
  | b :: l, s, s', hm, hp, he, h => by
    simp only [List.foldlM] at h
    cases h1 : f s b with
    | none => rw [h1] at h; simp at h
    | some s1 =>
      rw [h1] at h
      have h2 : l.foldlM f s1 = some s' := by simpa using h
      rcases List.mem_cons.1 hm with e | e
      · exact foldlM_preserve f P l s1 s' (fun c hc => hp c (by simp [hc])) (he s s1 (e ▸ h1)) h2
      · exact foldlM_reach f P a l s1 s' e (fun c hc => hp c (by simp [hc])) he h2

theorem backCell_writes {d nb : DEM} {ox oy x y : Int} {img img' : List Px}
    (h : backCell d nb ox oy img x y = some img') :
    getI img' (d.idx x y) = getI nb.data (d.idx (x + ox) (y + oy)) := by
  unfold backCell at h
  split at h
  · cases h
  · rename_i p hp
    rw [hp]
    unfold wrI at h
    split at h
    · cases h
    · rename_i hneg
      unfold wr at h
      split at h
      · cases h
        rename_i hlt
        unfold getI
        rw [if_neg hneg, List.getElem?_set_self hlt]
      · cases h

theorem idx_inj {d : DEM} (hs : d.stride = d.dim + 2) {x y x' y' : Int} (h1 : -1 ≤ x ∧ x ≤ d.dim) (h2 : -1 ≤ y ∧ y ≤ d.dim)
    (h3 : -1 ≤ x' ∧ x' ≤ d.dim) (h4 : -1 ≤ y' ∧ y' ≤ d.dim) (he : d.idx x' y' = d.idx x y) : x' = x ∧ y' = y := by
  simp only [DEM.idx, hs] at he
  have e1 : (y' + 1) * ((d.dim + 2 : Nat) : Int) + (x' + 1)
      = (((y' + 1).toNat * (d.dim + 2) + (x' + 1).toNat : Nat) : Int) := by
    push_cast
    rw [Int.toNat_of_nonneg (by omega), Int.toNat_of_nonneg (by omega)]
  have e2 : (y + 1) * ((d.dim + 2 : Nat) : Int) + (x + 1)
      = (((y + 1).toNat * (d.dim + 2) + (x + 1).toNat : Nat) : Int) := by
    push_cast
    rw [Int.toNat_of_nonneg (by omega), Int.toNat_of_nonneg (by omega)]
  rw [e1, e2] at he
  have := cell_inj (by omega) (by omega) (Int.ofNat.inj he)
  omega

/-- **C23.** The copying loop itself is right: past the test on the sizes, every border cell facing the neighbour gets
the neighbour's pixel at that place (`dim` further in the direction of the neighbour), for all eight directions. -/
theorem C23_loop_copies (d nb : DEM) (hs : d.stride = d.dim + 2) (hn : nb.stride = d.stride) (dx dy : Int)
    (d' : DEM) (h : backfillLoop d nb dx dy = some d') (x y : Int) (hf : Facing d dx dy x y) :
    getI d'.data (d'.idx x y) = getI nb.data (nb.idx (x - dx * d.dim) (y - dy * d.dim)) := by
  unfold backfillLoop at h
  dsimp only at h
  split at h
  · cases h
  · rename_i img himg
    cases h
    have hr : ∀ dx x : Int, (dx = -1 ∧ x = -1 ∨ dx = 1 ∧ x = d.dim ∨ dx = 0 ∧ 0 ≤ x ∧ x < d.dim) →
        (backRange d.dim dx).1 ≤ x ∧ x < (backRange d.dim dx).2 ∧ -1 ≤ (backRange d.dim dx).1 ∧
        (backRange d.dim dx).2 ≤ d.dim + 1 := by
      intro dx x hx
      simp only [backRange]
      rcases hx with ⟨rfl, rfl⟩ | ⟨rfl, rfl⟩ | ⟨rfl, h1, h2⟩ <;> simp <;> omega
    obtain ⟨a1, a2, a3, a4⟩ := hr dx x hf.1
    obtain ⟨b1, b2, b3, b4⟩ := hr dy y hf.2
    have key : getI img (d.idx x y) = getI nb.data (d.idx (x + -dx * d.dim) (y + -dy * d.dim)) := by
      let P : List Px → Prop := fun s => getI s (d.idx x y) = getI nb.data (d.idx (x + -dx * d.dim) (y + -dy * d.dim))
      have pres : ∀ x' ∈ irange (backRange d.dim dx).1 (backRange d.dim dx).2,
          ∀ y' ∈ irange (backRange d.dim dy).1 (backRange d.dim dy).2, ∀ s s', P s →
          backCell d nb (-dx * d.dim) (-dy * d.dim) s x' y' = some s' → P s' := by
        intro x' hx' y' hy' s s' hP h2
        rw [mem_irange] at hx' hy'
        by_cases he : d.idx x' y' = d.idx x y
        · obtain ⟨rfl, rfl⟩ := idx_inj hs (by omega) (by omega) (by omega) (by omega) he
          exact backCell_writes h2
        · show getI s' _ = _
          rw [← (show getI s (d.idx x y) = _ from hP)]
          unfold getI
          split
          · rfl
          · exact (backCell_frame h2 _ (by rw [Int.toNat_of_nonneg (by omega)]; exact fun e => he e.symm)).1
      refine foldlM_reach _ P y _ _ _ (mem_irange.2 ⟨b1, b2⟩) ?_ ?_ himg
      · intro y' hy' s s' hP h2
        exact foldlM_preserve _ P _ _ _ (fun x' hx' s1 s2 => pres x' hx' y' hy' s1 s2) hP h2
      · intro s s' h2
        exact foldlM_reach _ P x _ _ _ (mem_irange.2 ⟨a1, a2⟩)
          (fun x' hx' s1 s2 => pres x' hx' y (mem_irange.2 ⟨b1, b2⟩) s1 s2) (fun s1 s2 h3 => backCell_writes h3) h2
    show getI img (d.idx x y) = getI nb.data ((y - dy * d.dim + 1) * (nb.stride : Int) + (x - dx * d.dim + 1))
    rw [key, hn, DEM.idx]
    congr 1
    ring

/-- two tiles of one size: the loop runs and the facing cells exist -/
example : ∃ d nb d', newDEM tile22 0 = some (some d) ∧ newDEM (List.replicate 4 ⟨9, 9, 9, 255⟩) 0 = some (some nb) ∧
    d.stride = d.dim + 2 ∧ nb.stride = d.stride ∧ backfillLoop d nb 1 0 = some d' ∧ Facing d 1 0 2 0 :=
  ⟨((newDEM tile22 0).getD none).getD ⟨0, 0, 0, []⟩,
    ((newDEM (List.replicate 4 ⟨9, 9, 9, 255⟩) 0).getD none).getD ⟨0, 0, 0, []⟩,
    (backfillLoop (((newDEM tile22 0).getD none).getD ⟨0, 0, 0, []⟩)
      (((newDEM (List.replicate 4 ⟨9, 9, 9, 255⟩) 0).getD none).getD ⟨0, 0, 0, []⟩) 1 0).getD ⟨0, 0, 0, []⟩,
    by decide +kernel, by decide +kernel, by decide +kernel, by decide +kernel, by decide +kernel,
    by unfold Facing; decide +kernel⟩

/-- The inside-unchanged theorem is about something that happens: a 4×4 neighbour does change the
border of a 2×2 tile (with pixels of its own border and first rows, which is useless). -/
example : ∃ d nb d', newDEM tile22 0 = some (some d) ∧
    newDEM (List.replicate 16 ⟨9, 9, 9, 255⟩) 0 = some (some nb) ∧ d.stride = d.dim + 2 ∧
    backfill d nb 1 0 = some d' ∧ d' ≠ d :=
  ⟨((newDEM tile22 0).getD none).getD ⟨0, 0, 0, []⟩,
    ((newDEM (List.replicate 16 ⟨9, 9, 9, 255⟩) 0).getD none).getD ⟨0, 0, 0, []⟩,
    (backfill (((newDEM tile22 0).getD none).getD ⟨0, 0, 0, []⟩)
      (((newDEM (List.replicate 16 ⟨9, 9, 9, 255⟩) 0).getD none).getD ⟨0, 0, 0, []⟩) 1 0).getD
        ⟨0, 0, 0, []⟩,
    by decide +kernel, by decide +kernel, by decide +kernel, by decide +kernel, by decide +kernel⟩

end Verif.Raster
