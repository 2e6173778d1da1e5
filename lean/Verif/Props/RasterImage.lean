import Verif.Model.RasterImage
import Verif.Props.RasterFloat

/-!
# C67: elevation images
-/
namespace Verif.Raster
open Verif.F64

theorem set_rect (m : Img) (x y : Int) (p : Px) :
    (m.set x y p).x0 = m.x0 ∧ (m.set x y p).y0 = m.y0 ∧ (m.set x y p).x1 = m.x1 ∧ (m.set x y p).y1 = m.y1 := by
  unfold Img.set; split <;> simp

/-- Same rectangle. -/
def SameRect (m m' : Img) : Prop := m'.x0 = m.x0 ∧ m'.y0 = m.y0 ∧ m'.x1 = m.x1 ∧ m'.y1 = m.y1

theorem SameRect.trans {a b c : Img} (h : SameRect a b) (k : SameRect b c) : SameRect a c :=
  ⟨k.1.trans h.1, k.2.1.trans h.2.1, k.2.2.1.trans h.2.2.1, k.2.2.2.trans h.2.2.2⟩

theorem SameRect.has {a b : Img} (h : SameRect a b) (x y : Int) : b.has x y = a.has x y := by
  unfold Img.has; rw [h.1, h.2.1, h.2.2.1, h.2.2.2]

theorem set_px (m : Img) (x y a b : Int) (p : Px) :
    (m.set x y p).px a b = if a = x ∧ b = y ∧ m.has x y = true then p else m.px a b := by
  unfold Img.set
  by_cases h : m.has x y = true
  · rw [if_pos h]; simp [h]
  · rw [if_neg h]; simp [h]

theorem rowSet (f : Nat → Option Px) (g : Nat → Px) (y : Int) : ∀ (k : Nat) (img : Img), (∀ x < k, f x = some (g x)) →
    ∃ img', (List.range k).foldlM (fun (img : Img) (x : Nat) => (f x).map (img.set x y)) img = some img' ∧ SameRect img img' ∧
      ∀ a b : Int, img'.px a b = if 0 ≤ a ∧ a < k ∧ b = y ∧ img.has a b = true then g a.toNat else img.px a b := by
  intro k
  induction k with
  | zero =>
    intro img _
    refine ⟨img, rfl, ⟨rfl, rfl, rfl, rfl⟩, fun a b => ?_⟩
    rw [if_neg (by omega)]
  | succ k ih =>
    intro img hf
    obtain ⟨i1, e1, r1, p1⟩ := ih img (fun x hx => hf x (by omega))
    refine ⟨i1.set k y (g k), ?_, r1.trans (set_rect _ _ _ _), fun a b => ?_⟩
    · rw [List.range_succ, List.foldlM_append, e1]
      simp [hf k (by omega)]
    · rw [set_px, p1, r1.has]
      by_cases h1 : a = k
      · subst h1
        by_cases h2 : b = y
        · subst h2
          by_cases h3 : img.has k b = true
          · rw [if_pos ⟨rfl, rfl, h3⟩, if_pos ⟨by omega, by omega, rfl, h3⟩]; simp
          · rw [if_neg (by tauto), if_neg (by tauto), if_neg (by tauto)]
        · rw [if_neg (by tauto), if_neg (by tauto), if_neg (by tauto)]
      · rw [if_neg (by tauto)]
        by_cases h2 : 0 ≤ a ∧ a < k ∧ b = y ∧ img.has a b = true
        · rw [if_pos h2, if_pos ⟨h2.1, by omega, h2.2.2⟩]
        · rw [if_neg h2, if_neg]
          rintro ⟨q1, q2, q3⟩
          push_cast at q2
          exact h2 ⟨q1, by omega, q3⟩

theorem gridSet_spec (n m : Nat) (f : Nat → Nat → Option Px) (g : Nat → Nat → Px) (img : Img)
    (hf : ∀ x < m, ∀ y < n, f x y = some (g x y)) :
    ∃ img', gridSet n m f img = some img' ∧ SameRect img img' ∧
      ∀ a b : Int, img'.px a b = if 0 ≤ a ∧ a < m ∧ 0 ≤ b ∧ b < n ∧ img.has a b = true then g a.toNat b.toNat else img.px a b := by
  unfold gridSet
  induction n with
  | zero =>
    refine ⟨img, rfl, ⟨rfl, rfl, rfl, rfl⟩, fun a b => ?_⟩
    rw [if_neg (by omega)]
  | succ n ih =>
    obtain ⟨i1, e1, r1, p1⟩ := ih (fun x hx y hy => hf x hx y (by omega))
    obtain ⟨i2, e2, r2, p2⟩ := rowSet (fun x => f x n) (fun x => g x n) n m i1 (fun x hx => hf x hx n (by omega))
    refine ⟨i2, ?_, r1.trans r2, fun a b => ?_⟩
    · rw [List.range_succ, List.foldlM_append, e1]
      simp [e2]
    · rw [p2, p1, r1.has]
      by_cases h1 : b = n
      · subst h1
        by_cases h2 : 0 ≤ a ∧ a < m ∧ img.has a n = true
        · rw [if_pos ⟨h2.1, h2.2.1, rfl, h2.2.2⟩, if_pos ⟨h2.1, h2.2.1, by omega, by omega, h2.2.2⟩]; simp
        · rw [if_neg (by tauto), if_neg (by tauto), if_neg (by tauto)]
      · rw [if_neg (by tauto)]
        by_cases h2 : 0 ≤ a ∧ a < m ∧ 0 ≤ b ∧ b < n ∧ img.has a b = true
        · rw [if_pos h2, if_pos ⟨h2.1, h2.2.1, h2.2.2.1, by omega, h2.2.2.2.2⟩]
        · rw [if_neg h2, if_neg]
          rintro ⟨q1, q2, q3, q4, q5⟩
          push_cast at q4
          exact h2 ⟨q1, q2, q3, by omega, q5⟩

theorem toRGBA_opaque (p : Px) (h : p.a = 255) : toRGBA p = p := by
  have key : ∀ v : Fin 256, premul v 255 = v := by
    intro v
    apply Fin.ext
    show v.val * 257 * 255 / 255 / 256 = v.val
    have := v.isLt
    rw [Nat.mul_div_cancel _ (by omega)]; omega
  obtain ⟨r, g, b, a⟩ := p
  simp only at h
  subst h
  simp [toRGBA, key]

/-- What loading an even square image at the origin gives: the DEM of its pixels row by row. -/
theorem load_square (m : Img) (enc : Int) (n : Nat) (hr : m.x0 = 0 ∧ m.y0 = 0 ∧ m.x1 = n ∧ m.y1 = n) :
    loadDEM m enc = (newDEM ((List.range n).flatMap fun (y : Nat) => (List.range n).map fun (x : Nat) => toRGBA (m.at x y)) enc).map some := by
  obtain ⟨h1, h2, h3, h4⟩ := hr
  unfold loadDEM
  rw [h1, h2, h3, h4]
  simp

theorem grid_length (n : Nat) (f : Nat → Nat → Px) : ((List.range n).flatMap fun (y : Nat) => (List.range n).map fun (x : Nat) => f x y).length = n * n := by
  simp

theorem grid_get (n : Nat) (f : Nat → Nat → Px) (x y : Nat) (hx : x < n) (hy : y < n) :
    ((List.range n).flatMap fun (y : Nat) => (List.range n).map fun (x : Nat) => f x y)[y * n + x]? = some (f x y) := by
  have h := getElem?_grid (List.range n) (List.range n) y x (by simpa using hy) (by simpa using hx)
  have e : ((List.range n).flatMap fun (y : Nat) => (List.range n).map fun (x : Nat) => f x y) =
      ((List.range n).flatMap fun (y : Nat) => (List.range n).map fun (x : Nat) => (y, x)).map fun p => f p.2 p.1 := by
    rw [List.map_flatMap]; simp only [List.map_map]; rfl
  rw [e, List.getElem?_map]
  simp only [List.length_range] at h
  rw [h]; simp

theorem clampZ_lt {n : Nat} (hn : 1 ≤ n) (x : Int) : clampZ n x < n := by unfold clampZ; omega

/-- C67: `DemEncode` gives every pixel of a raster at the origin the code of its height. -/
theorem C67_encode (pack : ℚ → Px) (col row : Nat) (data : List ℚ) (hd : row * col ≤ data.length) :
    ∃ img, demEncode pack 0 0 col row data = some img ∧ img.x0 = 0 ∧ img.y0 = 0 ∧ img.x1 = col ∧ img.y1 = row ∧
      ∀ x y : Nat, x < col → y < row → (data[y * col + x]?).map pack = some (img.at x y) := by
  have hlt : ∀ x < col, ∀ y < row, y * col + x < data.length := by
    intro x hx y hy
    have : (y + 1) * col ≤ row * col := Nat.mul_le_mul_right _ hy
    rw [Nat.add_mul] at this; omega
  obtain ⟨img, e, r, p⟩ := gridSet_spec row col (fun x y => (data[y * col + x]?).map pack) (fun x y => pack (data.getD (y * col + x) 0))
    (Img.new 0 0 col row) (by
      intro x hx y hy
      have := hlt x hx y hy
      simp [List.getElem?_eq_getElem this])
  refine ⟨img, ?_, r.1, r.2.1, r.2.2.1, r.2.2.2, fun x y hx hy => ?_⟩
  · unfold demEncode; simpa using e
  · have hin : (Img.new 0 0 col row).has x y = true := by
      unfold Img.has Img.new; simp; omega
    have := hlt x hx y hy
    unfold Img.at
    rw [r.has, if_pos hin, p, if_pos ⟨by omega, by omega, by omega, by omega, hin⟩]
    simp [List.getElem?_eq_getElem this]

/-- C67: encoding a square raster with an even number of pixels and loading the image gives, for every arithmetic, a DEM whose
pixels are the codes of the heights and whose border repeats the nearest one. `pack` is a packer that writes alpha 255, as
both packers do. -/
theorem C67_encode_load (rnd : ℚ → ℚ) (pack : ℚ → Px) (hp : ∀ h, (pack h).a = 255) (n : Nat) (hn : 1 ≤ n) (he : n % 2 = 0) (data : List ℚ)
    (hd : data.length = n * n) (enc : Int) :
    ∃ img d, demEncode pack 0 0 n n data = some img ∧ loadDEM img enc = some (some (some d)) ∧ d.dim = n ∧
      ∀ x y : Int, -1 ≤ x → x ≤ n → -1 ≤ y → y ≤ n →
        ∃ h, data[clampZ n y * n + clampZ n x]? = some h ∧ d.get rnd x y = some (decode rnd (unpackOf rnd enc) (pack h)) := by
  obtain ⟨img, e1, r1, r2, r3, r4, hat⟩ := C67_encode pack n n data (by omega)
  have hl := load_square img enc n ⟨r1, r2, r3, r4⟩
  have hlen := grid_length n (fun x y => toRGBA (img.at x y))
  have hsq : 2 ≤ n := by omega
  obtain ⟨d, g1, g2⟩ := C20_get rnd ((List.range n).flatMap fun (y : Nat) => (List.range n).map fun (x : Nat) => toRGBA (img.at x y)) enc
    (by rw [hlen, Nat.mul_mod, he]) (by
      intro h; rw [h] at hlen; simp at hlen; omega)
  have hdim : d.dim = n := by
    obtain ⟨d', g1', g2', _⟩ := C20_inside_unchanged ((List.range n).flatMap fun (y : Nat) => (List.range n).map fun (x : Nat) => toRGBA (img.at x y)) enc n hlen
      (by rw [hlen, Nat.mul_mod, he]) hn
    rw [g1] at g1'
    simp only [Option.some.injEq] at g1'
    rw [g1']; exact g2'
  refine ⟨img, d, e1, by rw [hl, g1]; rfl, hdim, ?_⟩
  intro x y a b c e
  rw [hdim] at g2
  obtain ⟨p, h1, h2⟩ := g2 x y a b c e
  have hcx : clampZ n x < n := clampZ_lt hn x
  have hcy : clampZ n y < n := clampZ_lt hn y
  have hdx := hat _ _ hcx hcy
  rw [grid_get n (fun x y => toRGBA (img.at x y)) _ _ hcx hcy] at h1
  obtain ⟨h, k1, k2⟩ := Option.map_eq_some_iff.mp hdx
  refine ⟨h, k1, ?_⟩
  rw [h2]
  simp only [Option.some.injEq] at h1
  rw [← h1, ← k2, toRGBA_opaque _ (hp h)]

/-- C67: with the Mapbox packer and float64 arithmetic every height read back from the image, on the border too, is the height of
the nearest raster cell up to one 0.1 m step (and 10^-7 m), if the heights are between -10000 m and 1667721.5 m. -/
theorem C67_mapbox_heights (n : Nat) (hn : 1 ≤ n) (he : n % 2 = 0) (data : List ℚ) (hd : data.length = n * n)
    (hr : ∀ h ∈ data, -10000 ≤ h ∧ h ≤ 16677215 / 10) :
    ∃ img d, demEncode (packMapbox rnd) 0 0 n n data = some img ∧ loadDEM img 0 = some (some (some d)) ∧ d.dim = n ∧
      ∀ x y : Int, -1 ≤ x → x ≤ n → -1 ≤ y → y ≤ n →
        ∃ h v, data[clampZ n y * n + clampZ n x]? = some h ∧ d.get rnd x y = some v ∧ h - 1 / 10 - 1 / 10 ^ 7 < v ∧ v ≤ h + 1 / 10 ^ 7 := by
  obtain ⟨img, d, h1, h2, h3, h4⟩ := C67_encode_load rnd (packMapbox rnd) (fun _ => rfl) n hn he data hd 0
  refine ⟨img, d, h1, h2, h3, fun x y a b c e => ?_⟩
  obtain ⟨h, k1, k2⟩ := h4 x y a b c e
  have hm := hr h (List.mem_of_getElem? k1)
  have hp := C21_float_precision h hm.1 hm.2
  exact ⟨h, _, k1, k2, hp.1, hp.2⟩

/-- C67: the same with the Terrarium packer, exact arithmetic: within one metre (C22 says why not better). -/
theorem C67_terrarium_heights (n : Nat) (hn : 1 ≤ n) (he : n % 2 = 0) (data : List ℚ) (hd : data.length = n * n)
    (hr : ∀ h ∈ data, -32768 ≤ h ∧ h < 32768) :
    ∃ img d, demEncode (packTerrarium id) 0 0 n n data = some img ∧ loadDEM img 1 = some (some (some d)) ∧ d.dim = n ∧
      ∀ x y : Int, -1 ≤ x → x ≤ n → -1 ≤ y → y ≤ n →
        ∃ h v, data[clampZ n y * n + clampZ n x]? = some h ∧ d.get id x y = some v ∧ h - 1 < v ∧ v ≤ h + 24 / 256 := by
  obtain ⟨img, d, h1, h2, h3, h4⟩ := C67_encode_load id (packTerrarium id) (fun _ => rfl) n hn he data hd 1
  refine ⟨img, d, h1, h2, h3, fun x y a b c e => ?_⟩
  obtain ⟨h, k1, k2⟩ := h4 x y a b c e
  have hm := hr h (List.mem_of_getElem? k1)
  have hp := C22_within_one_metre h hm.1 hm.2
  exact ⟨h, _, k1, k2, hp.1, hp.2⟩

/-- C67: the Terrarium packer in float64 arithmetic: within one metre and 10^-10 m, up to 32767 m (above it the red byte wraps, see
`C22_float_wraps_at_top`). -/
theorem C67_terrarium_heights_float (n : Nat) (hn : 1 ≤ n) (he : n % 2 = 0) (data : List ℚ) (hd : data.length = n * n)
    (hr : ∀ h ∈ data, -32768 ≤ h ∧ h ≤ 32767) :
    ∃ img d, demEncode (packTerrarium rnd) 0 0 n n data = some img ∧ loadDEM img 1 = some (some (some d)) ∧ d.dim = n ∧
      ∀ x y : Int, -1 ≤ x → x ≤ n → -1 ≤ y → y ≤ n →
        ∃ h v, data[clampZ n y * n + clampZ n x]? = some h ∧ d.get rnd x y = some v ∧ h - 1 - 1 / 10 ^ 10 < v ∧ v ≤ h + 24 / 256 + 1 / 10 ^ 10 := by
  obtain ⟨img, d, h1, h2, h3, h4⟩ := C67_encode_load rnd (packTerrarium rnd) (fun _ => rfl) n hn he data hd 1
  refine ⟨img, d, h1, h2, h3, fun x y a b c e => ?_⟩
  obtain ⟨h, k1, k2⟩ := h4 x y a b c e
  have hm := hr h (List.mem_of_getElem? k1)
  have hp := C22_float_within_one_metre h hm.1 hm.2
  exact ⟨h, _, k1, k2, hp.1, hp.2⟩

/-- Four heights meet the conditions. -/
example : ([0, 8848, -430, 1 / 2] : List ℚ).length = 2 * 2 ∧ ∀ h ∈ ([0, 8848, -430, 1 / 2] : List ℚ), -10000 ≤ h ∧ h ≤ 16677215 / 10 := by
  refine ⟨rfl, ?_⟩
  intro h hm
  simp only [List.mem_cons, List.not_mem_nil, or_false] at hm
  rcases hm with rfl | rfl | rfl | rfl <;> norm_num

/-- C67: saving a DEM of opaque pixels and loading it again gives the same DEM, border included. -/
theorem C67_save_load (data : List Px) (enc : Int) (n : Nat) (hn : 1 ≤ n) (hlen : data.length = n * n) (he : n % 2 = 0)
    (ha : ∀ p ∈ data, p.a = 255) :
    ∃ d img, newDEM data enc = some (some d) ∧ d.image = some img ∧ loadDEM img enc = some (some (some d)) := by
  have heven : data.length % 2 = 0 := by rw [hlen, Nat.mul_mod, he]
  obtain ⟨d, h1, h2, h3⟩ := C20_inside_unchanged data enc n hlen heven hn
  have hlt : ∀ x < n, ∀ y < n, y * n + x < data.length := by
    intro x hx y hy
    have : (y + 1) * n ≤ n * n := Nat.mul_le_mul_right _ hy
    rw [Nat.add_mul] at this; omega
  obtain ⟨img, e, r, p⟩ := gridSet_spec n n (fun x y => getI d.data (d.idx x y)) (fun x y => data.getD (y * n + x) Px.zero) (Img.new 0 0 n n) (by
      intro x hx y hy
      rw [h3 x y hx hy]
      simp [List.getElem?_eq_getElem (hlt x hx y hy)])
  refine ⟨d, img, h1, by unfold DEM.image; rw [h2]; exact e, ?_⟩
  rw [load_square img enc n r]
  have hdata : ((List.range n).flatMap fun (y : Nat) => (List.range n).map fun (x : Nat) => toRGBA (img.at x y)) = data := by
    apply List.ext_getElem?
    intro k
    by_cases hk : k < n * n
    · have hq : k / n < n := Nat.div_lt_of_lt_mul hk
      have hm : k % n < n := Nat.mod_lt _ hn
      have hke : k / n * n + k % n = k := by rw [Nat.mul_comm]; exact Nat.div_add_mod k n
      have hg := grid_get n (fun x y => toRGBA (img.at x y)) (k % n) (k / n) hm hq
      rw [hke] at hg
      rw [hg]
      generalize hqq : k / n = q at *
      generalize hmm : k % n = m' at *
      have hin : (Img.new 0 0 n n).has m' q = true := by
        unfold Img.has Img.new; simp; omega
      have hkl : k < data.length := by omega
      unfold Img.at
      rw [r.has, if_pos hin, p, if_pos ⟨by omega, by omega, by omega, by omega, hin⟩]
      simp only [Int.toNat_natCast, hke]
      have hval : data.getD k Px.zero = data[k] := by simp [hkl]
      rw [hval, toRGBA_opaque _ (ha _ (List.getElem_mem _)), List.getElem?_eq_getElem hkl]
    · rw [List.getElem?_eq_none (by rw [grid_length n (fun x y => toRGBA (img.at x y))]; omega), List.getElem?_eq_none (by omega)]
  rw [hdata, h1]; rfl

/-- Four opaque pixels meet the conditions. -/
example : ∀ p ∈ [(⟨1, 2, 3, 255⟩ : Px), ⟨4, 5, 6, 255⟩, ⟨7, 8, 9, 255⟩, ⟨0, 0, 0, 255⟩], p.a = 255 := by decide

/-- C67: loading never panics; it is an error exactly for images that are not square, and gives a nil pointer without an error
exactly for squares with an odd side. -/
theorem C67_load (m : Img) (enc : Int) (hw : m.x0 ≤ m.x1) :
    loadDEM m enc ≠ none ∧ (loadDEM m enc = some none ↔ m.x1 - m.x0 ≠ m.y1 - m.y0) ∧
    (loadDEM m enc = some (some none) ↔ m.x1 - m.x0 = m.y1 - m.y0 ∧ (m.x1 - m.x0) % 2 = 1) := by
  by_cases h : m.x1 - m.x0 = m.y1 - m.y0
  · have e : loadDEM m enc = (newDEM ((List.range (m.y1 - m.y0).toNat).flatMap fun (y : Nat) =>
        (List.range (m.x1 - m.x0).toNat).map fun (x : Nat) => toRGBA (m.at x y)) enc).map some := by
      unfold loadDEM; rw [if_neg (by simpa using h)]
    have hlen : ((List.range (m.y1 - m.y0).toNat).flatMap fun (y : Nat) =>
        (List.range (m.x1 - m.x0).toNat).map fun (x : Nat) => toRGBA (m.at x y)).length = (m.x1 - m.x0).toNat * (m.x1 - m.x0).toNat := by
      rw [← h]; exact grid_length _ (fun x y => toRGBA (m.at x y))
    generalize ((List.range (m.y1 - m.y0).toNat).flatMap fun (y : Nat) =>
        (List.range (m.x1 - m.x0).toNat).map fun (x : Nat) => toRGBA (m.at x y)) = data at e hlen
    rw [e]
    refine ⟨by simpa using C20_never_panics data enc, by simp [h], ?_⟩
    have hodd : data.length % 2 = 1 ↔ (m.x1 - m.x0) % 2 = 1 := by
      rw [hlen]
      have : ((m.x1 - m.x0).toNat : Int) = m.x1 - m.x0 := by omega
      generalize (m.x1 - m.x0).toNat = k at this
      rw [Nat.mul_mod]
      rcases Nat.mod_two_eq_zero_or_one k with h0 | h0 <;> rw [h0] <;> simp <;> omega
    rw [← hodd]
    by_cases h2 : data.length % 2 = 1
    · rw [C20_odd_is_nil data enc h2]; simp [h, h2]
    · have h3 : newDEM data enc ≠ some none := by
        by_cases hne : data = []
        · subst hne
          unfold newDEM
          simp only [List.length_nil]
          rw [if_neg (by simp)]
          generalize fillInner [] (Nat.sqrt 0) (Nat.sqrt 0 + 2) (List.replicate ((Nat.sqrt 0 + 2) * (Nat.sqrt 0 + 2)) Px.zero) = i1
          cases i1 with
          | none => simp
          | some i1 =>
            simp only
            cases fillSides (Nat.sqrt 0) (Nat.sqrt 0 + 2) i1 with
            | none => simp
            | some i2 =>
              simp only
              cases fillTopBottom (Nat.sqrt 0) (Nat.sqrt 0 + 2) i2 <;> simp
        · obtain ⟨d, h4, _⟩ := C20_border_clamps data enc (by omega) hne
          rw [h4]; simp
      simp [h2, h3]
  · have e : loadDEM m enc = some none := by unfold loadDEM; rw [if_pos h]
    rw [e]; simp [h]

/-- C67: colours of a pixel that is not opaque are scaled by its alpha, so its height is lost: a transparent pixel is read as
code 0 (-10000 m). -/
theorem C67_transparent_height_lost (p : Px) (h : p.a = 0) : toRGBA p = Px.zero := by
  obtain ⟨r, g, b, a⟩ := p
  simp only at h
  subst h
  simp [toRGBA, premul, Px.zero]

/-- C67: the coordinates of a raster whose rectangle does not start at the origin are not shifted: of a 2×2 raster at (1,1) only
one cell gets a pixel, and not its own. -/
theorem C67_offset_raster_lost : ∃ img, demEncode (packMapbox id) 1 1 3 3 [0, 100, 200, 300] = some img ∧
    img.at 1 1 = packMapbox id 300 ∧ img.at 2 1 = Px.zero ∧ img.at 1 2 = Px.zero ∧ img.at 2 2 = Px.zero := by
  obtain ⟨img, e, r, p⟩ := gridSet_spec 2 2 (fun x y => (([0, 100, 200, 300] : List ℚ)[y * 2 + x]?).map (packMapbox id))
    (fun x y => packMapbox id (([0, 100, 200, 300] : List ℚ).getD (y * 2 + x) 0)) (Img.new 1 1 3 3) (by
      intro x hx y hy
      have h1 : x = 0 ∨ x = 1 := by omega
      have h2 : y = 0 ∨ y = 1 := by omega
      rcases h1 with rfl | rfl <;> rcases h2 with rfl | rfl <;> rfl)
  refine ⟨img, e, ?_, ?_, ?_, ?_⟩
  all_goals
    unfold Img.at
    rw [r.has, p]
    simp [Img.has, Img.new]

/-- C67: loading does not shift coordinates either: pixel (x,y) of the DEM is that of the point (x,y) of the image when it lies
inside the image's rectangle (right and lower edge not included), and zero otherwise. -/
theorem C67_load_pixels (m : Img) (enc : Int) (n : Nat) (hn : 1 ≤ n) (he : n % 2 = 0) (hx : m.x1 - m.x0 = n) (hy : m.y1 - m.y0 = n) :
    ∃ d, loadDEM m enc = some (some (some d)) ∧ d.dim = n ∧ ∀ x y : Nat, x < n → y < n →
      (m.x0 ≤ x ∧ x < m.x1 ∧ m.y0 ≤ y ∧ y < m.y1 → getI d.data (d.idx x y) = some (toRGBA (m.px x y))) ∧
      (¬ (m.x0 ≤ x ∧ x < m.x1 ∧ m.y0 ≤ y ∧ y < m.y1) → getI d.data (d.idx x y) = some ⟨0, 0, 0, 0⟩) := by
  have hlen := grid_length n (fun x y => toRGBA (m.at x y))
  obtain ⟨d, h1, h2, h3⟩ := C20_inside_unchanged ((List.range n).flatMap fun (y : Nat) => (List.range n).map fun (x : Nat) => toRGBA (m.at x y)) enc n hlen
      (by rw [hlen, Nat.mul_mod, he]) hn
  refine ⟨d, ?_, h2, fun x y hx' hy' => ?_⟩
  · unfold loadDEM
    rw [hx, hy]
    simp [h1]
  · have h := h3 x y hx' hy'
    rw [grid_get n (fun x y => toRGBA (m.at x y)) x y hx' hy'] at h
    rw [h]
    unfold Img.at
    refine ⟨fun hi => ?_, fun hi => ?_⟩
    · rw [if_pos (by unfold Img.has; simp; tauto)]
    · rw [if_neg (by unfold Img.has; simp; omega)]
      decide

/-- A 4×4 image at (1,1) meets the conditions. -/
example : ∃ m : Img, m.x1 - m.x0 = (4 : Nat) ∧ m.y1 - m.y0 = (4 : Nat) ∧ m.x0 = 1 :=
  ⟨Img.new 1 1 5 5, by decide, by decide, rfl⟩

end Verif.Raster
