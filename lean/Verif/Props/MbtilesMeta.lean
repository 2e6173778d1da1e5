import Verif.Proof.MbtilesMeta
import Verif.Props.MbtilesFile

/-!
# C82: metadata written by other tools; more of C46 and C47
-/
namespace Verif.Mbtiles
open Verif.Go

variable {LD : Type} {rnd : ℚ → ℚ} {cd : Codec LD}

theorem getMetadata_split {rows : List (String × List Char)} {tiles : List TileRow} {m : Metadata LD}
    (h : getMetadata rnd cd rows tiles = .ok m) : ∃ md, putRows rnd cd {} (rows.filter fun r => decide (r.2 ≠ [])) = .ok md ∧
      (md.maxZoom ≠ 0 ∧ m = md ∨ md.maxZoom = 0 ∧ ∃ mn mx, zoomRange tiles = some (mn, mx) ∧ m = { md with minZoom := mn, maxZoom := mx }) := by
  unfold getMetadata at h
  cases h1 : putRows rnd cd {} (rows.filter fun r => decide (r.2 ≠ [])) with
  | err => rw [h1] at h; simp [Res.bind] at h
  | panic => rw [h1] at h; simp [Res.bind] at h
  | ok md =>
    rw [h1] at h
    simp only [Res.bind] at h
    refine ⟨md, rfl, ?_⟩
    by_cases hz : md.maxZoom = 0
    · rw [if_pos hz] at h
      right
      refine ⟨hz, ?_⟩
      cases hr : zoomRange tiles with
      | none => rw [hr] at h; simp at h
      | some p =>
        obtain ⟨mn, mx⟩ := p
        rw [hr] at h
        simp only [Res.ok.injEq] at h
        exact ⟨mn, mx, rfl, h.symm⟩
    · rw [if_neg hz] at h
      simp only [Res.ok.injEq] at h
      exact Or.inl ⟨hz, h.symm⟩

/-- A field other than the zooms. -/
theorem field_given {α : Type} (π : Metadata LD → α) (K : Key) (P : List Char → α → Prop)
    (hset : ∀ md v u, parseRow rnd cd (keyName K, v) = .ok (some u) → P v (π (put md u)))
    (hrow : ∀ v, parseRow rnd cd (keyName K, v) ≠ .ok none)
    (hkeep : ∀ md u, Upd.key u ≠ K → π (put md u) = π md)
    (hz : ∀ (md : Metadata LD) mn mx, π { md with minZoom := mn, maxZoom := mx } = π md)
    {rows : List (String × List Char)} {tiles : List TileRow} {m : Metadata LD} (h : getMetadata rnd cd rows tiles = .ok m) :
    (given rows (keyName K) = none ∧ π m = π {}) ∨ ∃ v, given rows (keyName K) = some v ∧ P v (π m) := by
  obtain ⟨md, h1, h2⟩ := getMetadata_split h
  have e : π m = π md := by
    rcases h2 with ⟨_, rfl⟩ | ⟨_, mn, mx, _, rfl⟩
    · rfl
    · exact hz md mn mx
  rw [e, given_eq]
  exact field_last π K P hset hrow hkeep _ _ _ h1

theorem text_given (π : Metadata LD → List Char) (K : Key) (U : List Char → Upd LD)
    (hp : ∀ v, parseRow rnd cd (keyName K, v) = .ok (some (U v)))
    (hset : ∀ md v, π (put md (U v)) = v) (hkeep : ∀ md u, Upd.key u ≠ K → π (put md u) = π md) (h0 : π {} = [])
    (hz : ∀ (md : Metadata LD) mn mx, π { md with minZoom := mn, maxZoom := mx } = π md)
    {rows : List (String × List Char)} {tiles : List TileRow} {m : Metadata LD} (h : getMetadata rnd cd rows tiles = .ok m) :
    π m = (given rows (keyName K)).getD [] := by
  have key := field_given (rnd := rnd) (cd := cd) π K (fun v a => a = v)
    (fun md v u hu => by
      rw [hp] at hu
      simp only [Res.ok.injEq, Option.some.injEq] at hu
      rw [← hu, hset])
    (fun v hc => by rw [hp] at hc; cases hc) hkeep hz h
  rcases key with ⟨h1, h2⟩ | ⟨v, h1, h2⟩
  · rw [h1, h2, h0]; rfl
  · rw [h1, h2]; rfl

/-- **C82.** The texts `GetMetadata` returns are those of the last non-empty rows of their names, empty without one. -/
theorem C82_texts (rows : List (String × List Char)) (tiles : List TileRow) (m : Metadata LD) (h : getMetadata rnd cd rows tiles = .ok m) :
    m.name = (given rows "name").getD [] ∧ m.description = (given rows "description").getD [] ∧
    m.attribution = (given rows "attribution").getD [] ∧ m.version = (given rows "version").getD [] ∧
    m.directoryLayout = (given rows "directory_layout").getD [] ∧ m.origin = (given rows "origin").getD [] ∧
    m.srs = (given rows "srs").getD [] ∧ m.boundsSrs = (given rows "bounds_srs").getD [] := by
  refine ⟨?_, ?_, ?_, ?_, ?_, ?_, ?_, ?_⟩
  · exact text_given (·.name) .name .name (fun _ => rfl) (fun _ _ => rfl) (fun md u hu => by cases u <;> first | rfl | exact absurd rfl hu) rfl (fun _ _ _ => rfl) h
  · exact text_given (·.description) .description .description (fun _ => rfl) (fun _ _ => rfl) (fun md u hu => by cases u <;> first | rfl | exact absurd rfl hu) rfl (fun _ _ _ => rfl) h
  · exact text_given (·.attribution) .attribution .attribution (fun _ => rfl) (fun _ _ => rfl) (fun md u hu => by cases u <;> first | rfl | exact absurd rfl hu) rfl (fun _ _ _ => rfl) h
  · exact text_given (·.version) .version .version (fun _ => rfl) (fun _ _ => rfl) (fun md u hu => by cases u <;> first | rfl | exact absurd rfl hu) rfl (fun _ _ _ => rfl) h
  · exact text_given (·.directoryLayout) .layout .layout (fun _ => rfl) (fun _ _ => rfl) (fun md u hu => by cases u <;> first | rfl | exact absurd rfl hu) rfl (fun _ _ _ => rfl) h
  · exact text_given (·.origin) .origin .origin (fun _ => rfl) (fun _ _ => rfl) (fun md u hu => by cases u <;> first | rfl | exact absurd rfl hu) rfl (fun _ _ _ => rfl) h
  · exact text_given (·.srs) .srs .srs (fun _ => rfl) (fun _ _ => rfl) (fun md u hu => by cases u <;> first | rfl | exact absurd rfl hu) rfl (fun _ _ _ => rfl) h
  · exact text_given (·.boundsSrs) .boundsSrs .boundsSrs (fun _ => rfl) (fun _ _ => rfl) (fun md u hu => by cases u <;> first | rfl | exact absurd rfl hu) rfl (fun _ _ _ => rfl) h

theorem bindOk_inv {α β : Type} {r : Res α} {f : α → β} {b : β} (h : (r.bind fun a => .ok (f a)) = .ok b) : ∃ a, r = .ok a ∧ f a = b := by
  cases r with
  | ok a => exact ⟨a, rfl, by simpa [Res.bind] using h⟩
  | err => simp [Res.bind] at h
  | panic => simp [Res.bind] at h

/-- The texts of the table that mean an overlay. -/
theorem layer_overlay (s : List Char) : stringToLayerType s = if s = "overlay".toList then 1 else 0 := by
  have e : layerTypeStrings = ["baselayer".toList, "overlay".toList] := rfl
  have ne : "baselayer".toList ≠ "overlay".toList := by decide
  unfold stringToLayerType
  rw [e]
  generalize "baselayer".toList = A at ne ⊢
  generalize "overlay".toList = B at ne ⊢
  simp only [indexFrom]
  by_cases h0 : A = s
  · subst h0
    rw [if_pos rfl, if_neg ne]; rfl
  · rw [if_neg h0]
    by_cases h1 : B = s
    · subst h1
      rw [if_pos rfl, if_pos rfl]; rfl
    · rw [if_neg h1, if_neg (fun h => h1 h.symm)]; rfl

/-- **C82.** The type is overlay exactly if the table says "overlay"; the format is the one of the last "format" row. -/
theorem C82_type (rows : List (String × List Char)) (tiles : List TileRow) (m : Metadata LD) (h : getMetadata rnd cd rows tiles = .ok m) :
    m.type = (if given rows "type" = some "overlay".toList then 1 else 0) ∧
    (given rows "format" = none → m.format = UNKNOWN) ∧
    ∀ f s, 0 < f → tileFormatToString f = some s → (given rows "format" = some s ↔ m.format = f) := by
  have hf := field_given (rnd := rnd) (cd := cd) (·.format) .format (fun v a => a = stringToTileFormat v)
    (fun md v u hu => by
      have : Upd.format (stringToTileFormat v) = u := by simpa [parseRow, keyOf, keyName] using hu
      rw [← this]; rfl)
    (fun v hc => by simp [parseRow, keyOf, keyName] at hc)
    (fun md u hu => by cases u <;> first | rfl | exact absurd rfl hu) (fun _ _ _ => rfl) h
  have ht := field_given (rnd := rnd) (cd := cd) (·.type) .type (fun v a => a = stringToLayerType v)
    (fun md v u hu => by
      have : Upd.type (stringToLayerType v) = u := by simpa [parseRow, keyOf, keyName] using hu
      rw [← this]; rfl)
    (fun v hc => by simp [parseRow, keyOf, keyName] at hc)
    (fun md u hu => by cases u <;> first | rfl | exact absurd rfl hu) (fun _ _ _ => rfl) h
  refine ⟨?_, ?_, ?_⟩
  · rcases ht with ⟨h1, h2⟩ | ⟨v, h1, h2⟩
    · rw [show keyName .type = "type" from rfl] at h1
      rw [h1, h2]; rfl
    · rw [show keyName .type = "type" from rfl] at h1
      rw [h1, h2, layer_overlay]
      simp only [Option.some.injEq]
  · intro h0
    rcases hf with ⟨_, h2⟩ | ⟨v, h1, _⟩
    · exact h2
    · rw [show keyName .format = "format" from rfl, h0] at h1; cases h1
  · intro f s hpos hs
    rcases hf with ⟨h1, h2⟩ | ⟨v, h1, h2⟩
    · rw [show keyName .format = "format" from rfl] at h1
      rw [h1, h2]
      simp only [reduceCtorEq, false_iff]
      intro hc
      have : f = 0 := hc.symm
      exact absurd this (Nat.pos_iff_ne_zero.1 hpos)
    · rw [show keyName .format = "format" from rfl] at h1
      rw [h1, h2]
      simp only [Option.some.injEq]
      constructor
      · rintro rfl; exact C47_format_roundtrip f v hs
      · intro e
        have hne : stringToTileFormat v ≠ UNKNOWN := by rw [e]; exact Nat.pos_iff_ne_zero.1 hpos
        have := C47_unknown_names v hne
        rw [e, hs] at this
        simpa using this.symm

/-- A zoom as the table gives it: 0 without a row, else the integer of the row. -/
def TableZoom (rows : List (String × List Char)) (k : String) (n : Int) : Prop :=
  given rows k = none ∧ n = 0 ∨ ∃ s, given rows k = some s ∧ IntNumeral s n ∧ -2 ^ 63 ≤ n ∧ n < 2 ^ 63

/-- **C82.** Zooms: those of the table, unless it gives no largest zoom or 0: then the smallest and largest zoom of the stored tiles. -/
theorem C82_zooms (rows : List (String × List Char)) (tiles : List TileRow) (m : Metadata LD) (h : getMetadata rnd cd rows tiles = .ok m) :
    ∃ mn mx, TableZoom rows "minzoom" mn ∧ TableZoom rows "maxzoom" mx ∧
      (mx ≠ 0 → m.minZoom = mn ∧ m.maxZoom = mx) ∧
      (mx = 0 → (∃ r ∈ tiles, (r.z : Int) = m.minZoom) ∧ (∃ r ∈ tiles, (r.z : Int) = m.maxZoom) ∧
        ∀ r ∈ tiles, m.minZoom ≤ r.z ∧ (r.z : Int) ≤ m.maxZoom) := by
  obtain ⟨md, h1, h2⟩ := getMetadata_split h
  have hmin := field_last (rnd := rnd) (cd := cd) (·.minZoom) .minzoom (fun v a => IntNumeral v a ∧ -2 ^ 63 ≤ a ∧ a < 2 ^ 63)
    (fun md v u hu => by
      obtain ⟨n, hn, hu⟩ := bindOk_inv hu
      have : Upd.minzoom n = u := by simpa using hu
      rw [← this]
      exact (atoi_iff v n).1 hn)
    (fun v hc => by obtain ⟨n, -, hu⟩ := bindOk_inv hc; simp at hu)
    (fun md u hu => by cases u <;> first | rfl | exact absurd rfl hu) _ _ _ h1
  have hmax := field_last (rnd := rnd) (cd := cd) (·.maxZoom) .maxzoom (fun v a => IntNumeral v a ∧ -2 ^ 63 ≤ a ∧ a < 2 ^ 63)
    (fun md v u hu => by
      obtain ⟨n, hn, hu⟩ := bindOk_inv hu
      have : Upd.maxzoom n = u := by simpa using hu
      rw [← this]
      exact (atoi_iff v n).1 hn)
    (fun v hc => by obtain ⟨n, -, hu⟩ := bindOk_inv hc; simp at hu)
    (fun md u hu => by cases u <;> first | rfl | exact absurd rfl hu) _ _ _ h1
  rw [← given_eq] at hmin hmax
  refine ⟨md.minZoom, md.maxZoom, hmin, hmax, ?_, ?_⟩
  · intro hz
    rcases h2 with ⟨_, rfl⟩ | ⟨h0, _⟩
    · exact ⟨rfl, rfl⟩
    · exact absurd h0 hz
  · intro hz
    rcases h2 with ⟨h0, _⟩ | ⟨_, mn, mx, hr, rfl⟩
    · exact absurd hz h0
    · have hne : tiles ≠ [] := by rintro rfl; simp [zoomRange] at hr
      obtain ⟨a, b, e, h3⟩ := zoomRange_spec tiles hne
      rw [hr] at e
      obtain ⟨rfl, rfl⟩ : mn = a ∧ mx = b := by simpa using e
      exact h3

/-- A list of numbers in any decimal notation, within the range of float64, separated by commas, with spaces around them. -/
def Coordinates (t : List Char) (qs : List ℚ) : Prop :=
  ∃ parts, t = commaSep parts ∧ List.Forall₂ (fun p q => ∃ s, Spaced p s ∧ Decimal s q ∧ |q| ≤ 10 ^ 308) parts qs

theorem floats_coordinates (n : Nat) (t : List Char) (qs : List ℚ) (h : Coordinates t qs) (h1 : qs ≠ []) (hn : qs.length ≤ n) :
    stringToFloats rnd n t = .ok (qs.map rnd ++ List.replicate (n - qs.length) 0) := by
  obtain ⟨parts, rfl, hp⟩ := h
  have hl := hp.length_eq
  have hne : parts ≠ [] := by rintro rfl; simp at hl; exact h1 (List.eq_nil_of_length_eq_zero hl.symm)
  have hc : ∀ a ∈ parts, ',' ∉ a := by
    intro a ha
    obtain ⟨i, hi, rfl⟩ := List.mem_iff_getElem.1 ha
    obtain ⟨s, hs, hd, -⟩ := hp.get hi (hl ▸ hi)
    obtain ⟨c1, c2⟩ := decimal_chars hd
    exact (trim_spaced _ s hs c1 c2).2
  have hp' : List.Forall₂ (fun p q => parseFloat rnd (trimSpace p) = some q) parts (qs.map rnd) := by
    rw [List.forall₂_map_right_iff]
    refine hp.imp ?_
    rintro p q ⟨s, hs, hd, -⟩
    obtain ⟨c1, c2⟩ := decimal_chars hd
    rw [(trim_spaced p s hs c1 c2).1]
    exact parseFloat_decimal rnd s q hd
  unfold stringToFloats
  rw [commaSep_join, split_join ',' parts hne hc]
  have := floatsLoop_parts rnd parts (qs.map rnd) hp' [] n false (by omega) (Or.inl hne)
  simp only [List.length_nil, List.nil_append] at this
  rw [this, hl]

theorem floatsLoop_length (parts : List (List Char)) : ∀ (i : Nat) (acc : List ℚ) (e : Bool) (r : List ℚ),
    floatsLoop rnd parts i acc e = .ok r → r.length = acc.length := by
  induction parts with
  | nil =>
    intro i acc e r h
    rw [floatsLoop] at h
    split at h
    · cases h
    · have : acc = r := by simpa using h
      rw [this]
  | cons p ps ih =>
    intro i acc e r h
    rw [floatsLoop] at h
    by_cases hi : i < acc.length
    · rw [if_pos hi] at h
      split at h
      · rw [ih _ _ _ _ h, List.length_set]
      · rw [ih _ _ _ _ h, List.length_set]
    · rw [if_neg hi] at h; cases h

theorem floats_length (n : Nat) (v : List Char) (r : List ℚ) (h : stringToFloats rnd n v = .ok r) : r.length = n := by
  have := floatsLoop_length _ _ _ _ _ h
  simpa using this

theorem split_count (sep : Char) (s : List Char) : (split sep s).length = s.count sep + 1 := by
  induction s with
  | nil => rfl
  | cons c s ih =>
    rw [split]
    obtain ⟨w, ws, e⟩ := List.exists_cons_of_ne_nil (split_ne_nil sep s)
    rw [e] at ih ⊢
    simp only
    by_cases h : c = sep
    · rw [if_pos h, h, List.count_cons_self, List.length_cons, ih]
    · rw [if_neg h, List.count_cons_of_ne h]
      simpa using ih

theorem floats_count (n : Nat) (v : List Char) (r : List ℚ) (h : stringToFloats rnd n v = .ok r) : v.count ',' ≤ n - 1 := by
  by_contra hc
  unfold stringToFloats at h
  rw [floatsLoop_panic rnd _ 0 _ _ (by rw [split_count, List.length_replicate]; omega) (by omega)] at h
  cases h

theorem size_count (v : List Char) (r : Int × Int) (h : stringToTileSize v = .ok r) : v.count ',' ≤ 1 := by
  have := split_count ',' v
  unfold stringToTileSize at h
  match hs : split ',' v, this with
  | [], this => simp at this
  | [_], this => simp at this; omega
  | [_, _], this => simp at this; omega
  | a :: b :: c :: t, this =>
    rw [hs, sizeLoop, if_pos (by omega)] at h
    simp only at h
    rw [sizeLoop, if_pos (by omega)] at h
    simp only at h
    rw [sizeLoop, if_neg (by omega)] at h
    cases h

theorem parseInt_ok {s : List Char} {n : Int} (h : IntNumeral s n) (hn : IsI64 n) : parseInt s 10 = .ok n := by
  have := (atoi_iff s n).2 ⟨h, hn⟩
  unfold atoi at this
  cases hp : parseInt s 10 with
  | ok v => rw [hp] at this; simpa using this
  | error e => rw [hp] at this; simp at this

theorem size_numerals (a b s t : List Char) (w v : Int) (sa : Spaced a s) (sb : Spaced b t) (ia : IntNumeral s w) (ib : IntNumeral t v)
    (hw : IsI64 w) (hv : IsI64 v) : stringToTileSize (commaSep [a, b]) = .ok (w, v) := by
  obtain ⟨a1, a2⟩ := trim_spaced a s sa (int_chars ia).1 (int_chars ia).2
  obtain ⟨b1, b2⟩ := trim_spaced b t sb (int_chars ib).1 (int_chars ib).2
  unfold stringToTileSize
  rw [commaSep_join, split_join ',' [a, b] (by simp) (by simp [a2, b2])]
  rw [sizeLoop, if_pos (by omega), a1, parseInt_ok ia hw]
  simp only
  rw [sizeLoop, if_pos (by omega), b1, parseInt_ok ib hv]
  simp [sizeLoop]

theorem digit_not_sign {c : Char} (h : '0' ≤ c ∧ c ≤ '9') : c ≠ '+' ∧ c ≠ '-' := by
  constructor <;> (rintro rfl; revert h; decide)

theorem numeral_unique {s : List Char} {a b : Int} (ha : IntNumeral s a) (hb : IntNumeral s b) : a = b := by
  obtain ⟨g1, σ1, d1, rfl, h1, n1, e1, rfl⟩ := ha
  obtain ⟨g2, σ2, d2, hs, h2, n2, e2, rfl⟩ := hb
  obtain ⟨x, xs, rfl⟩ := List.exists_cons_of_ne_nil n1
  obtain ⟨y, ys, rfl⟩ := List.exists_cons_of_ne_nil n2
  have hx := digit_not_sign (e1 x (by simp))
  have hy := digit_not_sign (e2 y (by simp))
  cases h1 <;> cases h2 <;> simp at hs <;> first
    | (obtain ⟨rfl, rfl⟩ := hs; rfl)
    | (exact absurd hs.1 hx.1)
    | (exact absurd hs.1 hx.2)
    | (exact absurd hs.1.symm hy.1)
    | (exact absurd hs.1.symm hy.2)

/-- **C82.** Centre and bounds: the numbers of the last row, in any decimal notation and with spaces around, each the nearest float64; missing ones are 0. -/
theorem C82_coordinates (rows : List (String × List Char)) (tiles : List TileRow) (m : Metadata LD) (h : getMetadata rnd cd rows tiles = .ok m) :
    (given rows "center" = none → m.center = [0, 0, 0]) ∧ (given rows "bounds" = none → m.bounds = [0, 0, 0, 0]) ∧
    (∀ t qs, given rows "center" = some t → Coordinates t qs → qs ≠ [] → qs.length ≤ 3 →
      m.center = qs.map rnd ++ List.replicate (3 - qs.length) 0) ∧
    (∀ t qs, given rows "bounds" = some t → Coordinates t qs → qs ≠ [] → qs.length ≤ 4 →
      m.bounds = qs.map rnd ++ List.replicate (4 - qs.length) 0) ∧
    m.center.length = 3 ∧ m.bounds.length = 4 := by
  have hc := field_given (rnd := rnd) (cd := cd) (·.center) .center (fun v a => stringToFloats rnd 3 v = .ok a)
    (fun md v u hu => by
      obtain ⟨n, hn, hu⟩ := bindOk_inv hu
      have : Upd.center n = u := by simpa using hu
      rw [← this]
      exact hn)
    (fun v hc => by obtain ⟨n, -, hu⟩ := bindOk_inv hc; simp at hu)
    (fun md u hu => by cases u <;> first | rfl | exact absurd rfl hu) (fun _ _ _ => rfl) h
  have hb := field_given (rnd := rnd) (cd := cd) (·.bounds) .bounds (fun v a => stringToFloats rnd 4 v = .ok a)
    (fun md v u hu => by
      obtain ⟨n, hn, hu⟩ := bindOk_inv hu
      have : Upd.bounds n = u := by simpa using hu
      rw [← this]
      exact hn)
    (fun v hc => by obtain ⟨n, -, hu⟩ := bindOk_inv hc; simp at hu)
    (fun md u hu => by cases u <;> first | rfl | exact absurd rfl hu) (fun _ _ _ => rfl) h
  rw [show keyName .center = "center" from rfl] at hc
  rw [show keyName .bounds = "bounds" from rfl] at hb
  refine ⟨?_, ?_, ?_, ?_, ?_, ?_⟩
  · intro h0
    rcases hc with ⟨_, h2⟩ | ⟨v, h1, _⟩
    · exact h2
    · rw [h0] at h1; cases h1
  · intro h0
    rcases hb with ⟨_, h2⟩ | ⟨v, h1, _⟩
    · exact h2
    · rw [h0] at h1; cases h1
  · intro t qs ht hq hne hl
    rcases hc with ⟨h1, _⟩ | ⟨v, h1, h2⟩
    · rw [ht] at h1; cases h1
    · rw [ht] at h1
      obtain rfl : t = v := by simpa using h1
      rw [floats_coordinates 3 t qs hq hne hl] at h2
      simpa using h2.symm
  · intro t qs ht hq hne hl
    rcases hb with ⟨h1, _⟩ | ⟨v, h1, h2⟩
    · rw [ht] at h1; cases h1
    · rw [ht] at h1
      obtain rfl : t = v := by simpa using h1
      rw [floats_coordinates 4 t qs hq hne hl] at h2
      simpa using h2.symm
  · rcases hc with ⟨_, h2⟩ | ⟨v, _, h2⟩
    · simp only at h2; rw [h2]; rfl
    · exact floats_length 3 v m.center h2
  · rcases hb with ⟨_, h2⟩ | ⟨v, _, h2⟩
    · simp only at h2; rw [h2]; rfl
    · exact floats_length 4 v m.bounds h2

theorem merged_inv {ts : List (List Char)} {d : Option LD} (h : Merged cd.dec cd.more ts d) : (ts = [] ∧ d = none) ∨
    ∃ ts' t d0, ts = ts' ++ [t] ∧ Merged cd.dec cd.more ts' d0 ∧ ((d0 = none ∧ cd.dec t = some d) ∨ ∃ old, d0 = some old ∧ cd.dec t ≠ none ∧ d = cd.more old t) := by
  cases h with
  | nil => exact .inl ⟨rfl, rfl⟩
  | first h1 h2 => exact .inr ⟨_, _, _, rfl, h1, .inl ⟨rfl, h2⟩⟩
  | again h1 h2 => exact .inr ⟨_, _, _, rfl, h1, .inr ⟨_, rfl, h2, rfl⟩⟩

theorem merged_nil {d : Option LD} (h : Merged cd.dec cd.more [] d) : d = none := by
  rcases merged_inv h with ⟨_, rfl⟩ | ⟨ts', t, d0, e, _⟩
  · rfl
  · simp at e

theorem merged_one {t : List Char} {d : Option LD} (h : Merged cd.dec cd.more [t] d) : cd.dec t = some d := by
  rcases merged_inv h with ⟨e, _⟩ | ⟨ts', t', d0, e, h0, h1⟩
  · simp at e
  · obtain ⟨rfl, rfl⟩ : ts' = [] ∧ t = t' := by
      cases ts' with
      | nil => simpa using e
      | cons a l => simp at e
    rw [merged_nil h0] at h1
    rcases h1 with ⟨_, h1⟩ | ⟨old, e, _⟩
    · exact h1
    · cases e

theorem putRows_json : ∀ (rows : List (String × List Char)) (md' : Metadata LD), putRows rnd cd {} rows = .ok md' →
    Merged cd.dec cd.more ((rows.filter fun r => r.1 = "json").map Prod.snd) md'.layerData := by
  intro rows
  induction rows using List.reverseRecOn with
  | nil => intro md' h; simp only [putRows, Res.ok.injEq] at h; rw [← h]; exact .nil
  | append_singleton rows r ih =>
    intro md' h
    obtain ⟨m1, o, h1, h2, rfl⟩ := putRows_snoc h
    have hm := ih m1 h1
    obtain ⟨k, v⟩ := r
    rw [List.filter_append, List.map_append]
    by_cases hk : k = "json"
    · subst hk
      simp only [parseRow, keyOf] at h2
      cases hd : cd.dec v with
      | none => rw [hd] at h2; simp at h2
      | some d =>
        rw [hd] at h2
        simp only [Res.ok.injEq] at h2
        subst h2
        simp only [putO, put, decide_true, List.filter_cons_of_pos, List.filter_nil, List.map_cons, List.map_nil]
        cases hl : m1.layerData with
        | none => rw [hl] at hm; exact .first hm hd
        | some old => rw [hl] at hm; exact .again hm (by rw [hd]; simp)
    · have e : (putO m1 o).layerData = m1.layerData := by
        cases o with
        | none => rfl
        | some u =>
          have hku := parseRow_key h2
          cases u <;> first | rfl | exact absurd (keyOf_name hku) hk
      rw [e]
      simpa [hk] using hm

/-- **C82.** The layer data is that of the "json" rows: of each one decoded over what the ones before it gave. -/
theorem C82_json_rows (rows : List (String × List Char)) (tiles : List TileRow) (m : Metadata LD) (h : getMetadata rnd cd rows tiles = .ok m) :
    Merged cd.dec cd.more (jsonTexts rows) m.layerData := by
  obtain ⟨md, h1, h2⟩ := getMetadata_split h
  have e : m.layerData = md.layerData := by
    rcases h2 with ⟨_, rfl⟩ | ⟨_, mn, mx, _, rfl⟩ <;> rfl
  have hm := putRows_json _ _ h1
  rw [e]
  unfold jsonTexts
  convert hm using 2
  rw [List.filter_filter]
  congr 1
  funext r
  simp [Bool.decide_and]

/-- **C82.** Tile size, resolution factor and layer data when there is one "json" row at most. -/
theorem C82_rest (rows : List (String × List Char)) (tiles : List TileRow) (m : Metadata LD) (h : getMetadata rnd cd rows tiles = .ok m) :
    (given rows "tile_size" = none → m.tileSize = none) ∧
    (∀ a b s t w v, given rows "tile_size" = some (commaSep [a, b]) → Spaced a s → Spaced b t → IntNumeral s w → IntNumeral t v →
      IsI64 w → IsI64 v → m.tileSize = some (w, v)) ∧
    (given rows "res_factor" = none → m.resFactor = .nil) ∧
    (given rows "res_factor" = some "sqrt2".toList → m.resFactor = .str "sqrt2".toList) ∧
    (∀ t s q, given rows "res_factor" = some t → Spaced t s → Decimal s q → |q| ≤ 10 ^ 308 → m.resFactor = .num (rnd q)) ∧
    (given rows "json" = none → m.layerData = none) ∧
    (∀ t, (rows.map Prod.fst).count "json" ≤ 1 → given rows "json" = some t → cd.dec t = some m.layerData) := by
  have hs := field_given (rnd := rnd) (cd := cd) (·.tileSize) .tileSize (fun v a => ∃ t, stringToTileSize v = .ok t ∧ a = some t)
    (fun md v u hu => by
      obtain ⟨n, hn, hu⟩ := bindOk_inv hu
      have : Upd.tileSize n = u := by simpa using hu
      rw [← this]
      exact ⟨n, hn, rfl⟩)
    (fun v hc => by obtain ⟨n, -, hu⟩ := bindOk_inv hc; simp at hu)
    (fun md u hu => by cases u <;> first | rfl | exact absurd rfl hu) (fun _ _ _ => rfl) h
  have hr := field_given (rnd := rnd) (cd := cd) (·.resFactor) .resFactor (fun v a => a = stringToResFactor rnd v)
    (fun md v u hu => by
      have : Upd.resFactor (stringToResFactor rnd v) = u := by simpa [parseRow, keyOf, keyName] using hu
      rw [← this]; rfl)
    (fun v hc => by simp [parseRow, keyOf, keyName] at hc)
    (fun md u hu => by cases u <;> first | rfl | exact absurd rfl hu) (fun _ _ _ => rfl) h
  have hj := C82_json_rows rows tiles m h
  rw [show keyName .tileSize = "tile_size" from rfl] at hs
  rw [show keyName .resFactor = "res_factor" from rfl] at hr
  refine ⟨?_, ?_, ?_, ?_, ?_, ?_, ?_⟩
  · intro h0
    rcases hs with ⟨_, h2⟩ | ⟨v, h1, _⟩
    · exact h2
    · rw [h0] at h1; cases h1
  · intro a b s t w v hg sa sb ia ib hw hv
    rcases hs with ⟨h1, _⟩ | ⟨x, h1, y, h2, h3⟩
    · rw [hg] at h1; cases h1
    · rw [hg] at h1
      obtain rfl : commaSep [a, b] = x := by simpa using h1
      rw [size_numerals a b s t w v sa sb ia ib hw hv] at h2
      obtain rfl : (w, v) = y := by simpa using h2
      exact h3
  · intro h0
    rcases hr with ⟨_, h2⟩ | ⟨v, h1, _⟩
    · exact h2
    · rw [h0] at h1; cases h1
  · intro hg
    rcases hr with ⟨h1, _⟩ | ⟨v, h1, h2⟩
    · rw [hg] at h1; cases h1
    · rw [hg] at h1
      have : "sqrt2".toList = v := by simpa only [Option.some.injEq] using h1
      rw [← this] at h2
      rw [h2, stringToResFactor, if_pos rfl]
  · intro t s q hg ht hd _
    rcases hr with ⟨h1, _⟩ | ⟨v, h1, h2⟩
    · rw [hg] at h1; cases h1
    · rw [hg] at h1
      obtain rfl : t = v := by simpa using h1
      obtain ⟨c1, c2⟩ := decimal_chars hd
      rw [h2, stringToResFactor, if_neg, (trim_spaced t s ht c1 c2).1, parseFloat_decimal rnd s q hd]
      rintro rfl
      obtain ⟨a, b, hab, hsp⟩ := ht
      have hm : 'q' ∈ a ++ s ++ b := by rw [← hab]; decide
      rw [List.mem_append, List.mem_append] at hm
      rcases hm with (h | h) | h
      · exact absurd (hsp 'q' (by simp [h])) (by decide)
      · exact absurd (c2 'q' h) (by decide)
      · exact absurd (hsp 'q' (by simp [h])) (by decide)
  · intro h0
    have e : jsonTexts rows = [] := by
      unfold given at h0
      simpa [jsonTexts] using h0
    rw [e] at hj
    exact merged_nil hj
  · intro t hc hg
    have e : jsonTexts rows = [t] := by
      have hl : (rows.filter fun r => r.1 = "json" ∧ r.2 ≠ []).length ≤ 1 := by
        refine le_trans ?_ hc
        rw [List.count_eq_countP, List.countP_map, ← List.countP_eq_length_filter]
        refine List.countP_mono_left fun r _ hr => ?_
        simp only [Bool.decide_and, Bool.and_eq_true, decide_eq_true_eq] at hr
        simp [hr.1]
      unfold given at hg
      unfold jsonTexts
      generalize (rows.filter fun r => r.1 = "json" ∧ r.2 ≠ []) = l at hl hg
      match l, hl with
      | [], _ => simp at hg
      | [r], _ => simpa using hg
      | _ :: _ :: _, hl => simp at hl
    rw [e] at hj
    exact merged_one hj

/-- A row of another tool that `GetMetadata` can read. -/
def Readable (cd : Codec LD) (r : String × List Char) : Prop :=
  ((r.1 = "minzoom" ∨ r.1 = "maxzoom") → ∃ n, IntNumeral r.2 n ∧ IsI64 n) ∧
  (r.1 = "center" → ∃ qs, Coordinates r.2 qs ∧ qs ≠ [] ∧ qs.length ≤ 3) ∧
  (r.1 = "bounds" → ∃ qs, Coordinates r.2 qs ∧ qs ≠ [] ∧ qs.length ≤ 4) ∧
  (r.1 = "tile_size" → ∃ a b s t w v, r.2 = commaSep [a, b] ∧ Spaced a s ∧ Spaced b t ∧ IntNumeral s w ∧ IntNumeral t v ∧ IsI64 w ∧ IsI64 v) ∧
  (r.1 = "json" → cd.dec r.2 ≠ none)

/-- **C82.** `GetMetadata` succeeds on every table of readable rows of any other names, if there are tiles or a largest zoom. -/
theorem C82_accepts (rows : List (String × List Char)) (tiles : List TileRow) (hr : ∀ r ∈ rows, r.2 ≠ [] → Readable cd r)
    (hz : tiles ≠ [] ∨ ∃ s n, given rows "maxzoom" = some s ∧ IntNumeral s n ∧ n ≠ 0) : ∃ m, getMetadata rnd cd rows tiles = .ok m := by
  have hp : ∃ md, putRows rnd cd {} (rows.filter fun r => decide (r.2 ≠ [])) = .ok md := by
    rw [putRows_iff]
    intro r hm
    rw [List.mem_filter] at hm
    obtain ⟨h1, h2, h3, h4, h5⟩ := hr r hm.1 (by simpa using hm.2)
    unfold parseRow
    cases hk : keyOf r.1 with
    | none => exact ⟨_, rfl⟩
    | some k =>
      have hn := keyOf_name hk
      cases k with
      | minzoom =>
        obtain ⟨n, i1, i2⟩ := h1 (Or.inl hn)
        simp only [(atoi_iff r.2 n).2 ⟨i1, i2⟩]
        exact ⟨_, rfl⟩
      | maxzoom =>
        obtain ⟨n, i1, i2⟩ := h1 (Or.inr hn)
        simp only [(atoi_iff r.2 n).2 ⟨i1, i2⟩]
        exact ⟨_, rfl⟩
      | center =>
        obtain ⟨qs, i1, i2, i3⟩ := h2 hn
        simp only [floats_coordinates 3 r.2 qs i1 i2 i3]
        exact ⟨_, rfl⟩
      | bounds =>
        obtain ⟨qs, i1, i2, i3⟩ := h3 hn
        simp only [floats_coordinates 4 r.2 qs i1 i2 i3]
        exact ⟨_, rfl⟩
      | tileSize =>
        obtain ⟨a, b, s, t, w, v, e, i1, i2, i3, i4, i5, i6⟩ := h4 hn
        simp only [e, size_numerals a b s t w v i1 i2 i3 i4 i5 i6]
        exact ⟨_, rfl⟩
      | json =>
        obtain ⟨d, hd⟩ := Option.ne_none_iff_exists'.1 (h5 hn)
        simp only [hd]
        exact ⟨_, rfl⟩
      | _ => exact ⟨_, rfl⟩
  obtain ⟨md, hmd⟩ := hp
  unfold getMetadata
  rw [hmd]
  simp only [Res.bind]
  by_cases h0 : md.maxZoom = 0
  · rw [if_pos h0]
    have ht : tiles ≠ [] := by
      rcases hz with h | ⟨s, n, hg, hi, hn⟩
      · exact h
      · exfalso
        have hmax := field_last (rnd := rnd) (cd := cd) (·.maxZoom) .maxzoom (fun v a => IntNumeral v a ∧ -2 ^ 63 ≤ a ∧ a < 2 ^ 63)
          (fun md v u hu => by
            obtain ⟨n, hn, hu⟩ := bindOk_inv hu
            have : Upd.maxzoom n = u := by simpa using hu
            rw [← this]
            exact (atoi_iff v n).1 hn)
          (fun v hc => by obtain ⟨n, -, hu⟩ := bindOk_inv hc; simp at hu)
          (fun md u hu => by cases u <;> first | rfl | exact absurd rfl hu) _ _ _ hmd
        rw [← given_eq, show keyName .maxzoom = "maxzoom" from rfl, hg] at hmax
        rcases hmax with ⟨h, _⟩ | ⟨v, hv, h1, h2, h3⟩
        · cases h
        · obtain rfl : s = v := by simpa using hv
          simp only [h0] at h1 h2 h3
          exact hn (numeral_unique hi h1)
    obtain ⟨mn, mx, e, -⟩ := zoomRange_spec tiles ht
    rw [e]
    exact ⟨_, rfl⟩
  · rw [if_neg h0]
    exact ⟨_, rfl⟩

/-- **C82.** It does not succeed if a zoom is not an integer of 64 bits, a list of coordinates is too long, layer data is not JSON of the right
shape, or there are neither tiles nor a largest zoom. -/
theorem C82_rejects (rows : List (String × List Char)) (tiles : List TileRow) (m : Metadata LD) (h : getMetadata rnd cd rows tiles = .ok m) :
    (∀ r ∈ rows, r.2 ≠ [] →
      ((r.1 = "minzoom" ∨ r.1 = "maxzoom") → ∃ n, IntNumeral r.2 n ∧ IsI64 n) ∧
      (r.1 = "center" → r.2.count ',' ≤ 2) ∧ (r.1 = "bounds" → r.2.count ',' ≤ 3) ∧ (r.1 = "tile_size" → r.2.count ',' ≤ 1) ∧
      (r.1 = "json" → cd.dec r.2 ≠ none)) ∧
    (tiles ≠ [] ∨ ∃ s n, given rows "maxzoom" = some s ∧ IntNumeral s n ∧ n ≠ 0) := by
  constructor
  · intro r hr hne
    obtain ⟨md, h1, -⟩ := getMetadata_split h
    obtain ⟨o, ho⟩ := (putRows_iff rnd cd _ _).1 ⟨md, h1⟩ r (List.mem_filter.2 ⟨hr, by simpa using hne⟩)
    obtain ⟨k, v⟩ := r
    refine ⟨?_, ?_, ?_, ?_, ?_⟩
    · intro hk
      have : ∃ n, atoi v = .ok n := by
        rcases hk with rfl | rfl
        · obtain ⟨n, hn, -⟩ := bindOk_inv ho; exact ⟨n, hn⟩
        · obtain ⟨n, hn, -⟩ := bindOk_inv ho; exact ⟨n, hn⟩
      obtain ⟨n, hn⟩ := this
      exact ⟨n, (atoi_iff v n).1 hn⟩
    · rintro rfl
      obtain ⟨n, hn, -⟩ := bindOk_inv ho
      exact floats_count 3 v n hn
    · rintro rfl
      obtain ⟨n, hn, -⟩ := bindOk_inv ho
      exact floats_count 4 v n hn
    · rintro rfl
      obtain ⟨n, hn, -⟩ := bindOk_inv ho
      exact size_count v n hn
    · rintro rfl hc
      simp only at hc
      simp only [parseRow, keyOf] at ho
      rw [hc] at ho
      simp at ho
  · obtain ⟨mn, mx, -, hx, h1, h2⟩ := C82_zooms rows tiles m h
    by_cases h0 : mx = 0
    · left
      obtain ⟨⟨r, hr, -⟩, -⟩ := h2 h0
      exact List.ne_nil_of_mem hr
    · right
      rcases hx with ⟨_, hc⟩ | ⟨s, hs, hi, -⟩
      · exact absurd hc h0
      · exact ⟨s, mx, hs, hi, h0⟩

theorem abs_le_308 (q : ℚ) (h : |q| ≤ 1000) : |q| ≤ 10 ^ 308 := by
  have : (10 : ℚ) ^ 3 ≤ 10 ^ 308 := pow_le_pow_right₀ (by norm_num) (by norm_num)
  refine h.trans (le_trans ?_ this)
  norm_num

/-- C82's hypotheses are met: a list of coordinates as other tools write it. -/
theorem C82_example : Coordinates "-180.0, 8.5e1".toList [-180, 85] := by
  have dig : ∀ s, (∀ c ∈ s, '0' ≤ c ∧ c ≤ '9') → Digits10 s := fun _ h => h
  refine ⟨["-180.0".toList, " 8.5e1".toList], by decide, ?_⟩
  refine .cons ⟨"-180.0".toList, ⟨[], [], by decide, by simp⟩, ?_, abs_le_308 _ (by norm_num)⟩ (.cons ⟨"8.5e1".toList, ⟨[' '], [], by decide, by decide⟩, ?_, abs_le_308 _ (by norm_num)⟩ .nil)
  · exact ⟨['-'], -1, ['1', '8', '0'], ['0'], ['.', '0'], [], 0, by decide, .minus, dig _ (by decide), dig _ (by decide), by decide, by decide, Or.inl ⟨rfl, rfl⟩, by
      rw [show value10 ['1', '8', '0'] = 180 by decide, show value10 ['0'] = 0 by decide]; norm_num⟩
  · exact ⟨[], 1, ['8'], ['5'], ['.', '5'], ['e', '1'], 1, by decide, .none, dig _ (by decide), dig _ (by decide), by decide, by decide,
      Or.inr ⟨'e', ['1'], Or.inl rfl, rfl, [], 1, ['1'], rfl, .none, by decide, dig _ (by decide), by decide⟩, by
      rw [show value10 ['8'] = 8 by decide, show value10 ['5'] = 5 by decide]; norm_num⟩

example : (getMetadata id (⟨id, fun s => some (some s), fun _ s => some s⟩ : Codec (List Char)) [("name", "osm".toList), ("maxzoom", "+014".toList), ("bounds", "-180.0, 8.5e1".toList), ("type", "overlay".toList),
    ("name", "roads".toList), ("generator", "x".toList)] []) = .ok { name := "roads".toList, maxZoom := 14, bounds := [-180, 85, 0, 0], type := 1 } := by
  decide +kernel

/-! ## NULL -/

theorem putRowsNull_some (md : Metadata LD) : ∀ rows : List (String × List Char),
    putRowsNull rnd cd md (rows.map fun r => (some r.1, some r.2)) = putRows rnd cd md rows := by
  intro rows
  induction rows generalizing md with
  | nil => rfl
  | cons r rows ih =>
    simp only [List.map_cons, putRowsNull, putRows]
    congr 1
    funext md'
    exact ih md'

theorem putRowsNull_null : ∀ (rows : List (Option String × Option (List Char))) (md m : Metadata LD),
    (∃ r ∈ rows, r.1 = none ∨ r.2 = none) → putRowsNull rnd cd md rows ≠ .ok m := by
  intro rows
  induction rows with
  | nil => intro md m h; simp at h
  | cons r rows ih =>
    obtain ⟨k, v⟩ := r
    intro md m h
    cases k with
    | none => simp [putRowsNull]
    | some k =>
      cases v with
      | none => simp [putRowsNull]
      | some v =>
        have h' : ∃ r ∈ rows, r.1 = none ∨ r.2 = none := by simpa using h
        simp only [putRowsNull]
        cases putRow rnd cd md (k, v) with
        | ok md' => exact ih md' m h'
        | err => simp [Res.bind]
        | panic => simp [Res.bind]

/-- **C82.** A table without NULL is read as the other theorems say. With a NULL for a value, or for the name of a row whose value is not
empty, `GetMetadata` never succeeds; and it is an error if no row comes before it. -/
theorem C82_null (tiles : List TileRow) :
    (∀ rows : List (String × List Char), getMetadataNull rnd cd (rows.map fun r => (some r.1, some r.2)) tiles = getMetadata rnd cd rows tiles) ∧
    (∀ rows : List (Option String × Option (List Char)), (∃ r ∈ rows, r.2 = none ∨ r.1 = none ∧ r.2 ≠ some []) →
      ∀ m : Metadata LD, getMetadataNull rnd cd rows tiles ≠ .ok m) ∧
    (∀ (k : Option String) (rest : List (Option String × Option (List Char))), getMetadataNull rnd cd ((k, none) :: rest) tiles = .err) := by
  refine ⟨fun rows => ?_, fun rows h m hm => ?_, fun k rest => ?_⟩
  · unfold getMetadataNull getMetadata
    rw [List.filter_map]
    have e : (rows.filter ((fun r : Option String × Option (List Char) => decide (r.2 ≠ some [])) ∘ fun r : String × List Char => (some r.1, some r.2))) =
        rows.filter fun r => decide (r.2 ≠ []) := by
      congr 1
      funext r
      simp
    rw [e, putRowsNull_some]
  · unfold getMetadataNull at hm
    obtain ⟨r, hr, hn⟩ := h
    have h' : ∃ r ∈ rows.filter (fun r => decide (r.2 ≠ some [])), r.1 = none ∨ r.2 = none := by
      refine ⟨r, List.mem_filter.2 ⟨hr, ?_⟩, by tauto⟩
      rcases hn with hn | ⟨_, hn⟩
      · rw [hn]; simp
      · simpa using hn
    cases hp : putRowsNull rnd cd {} (rows.filter fun r => decide (r.2 ≠ some [])) with
    | ok md => exact putRowsNull_null _ _ _ h' hp
    | err => rw [hp] at hm; simp [Res.bind] at hm
    | panic => rw [hp] at hm; simp [Res.bind] at hm
  · unfold getMetadataNull
    cases k <;> simp [putRowsNull, Res.bind]

example : (getMetadataNull id (⟨id, fun s => some (some s), fun _ s => some s⟩ : Codec (List Char)) [(some "maxzoom", some "3".toList), (none, some [])] []) =
    .ok { maxZoom := 3 } ∧
    (getMetadataNull id (⟨id, fun s => some (some s), fun _ s => some s⟩ : Codec (List Char)) [(some "maxzoom", some "3".toList), (some "name", none)] []) =
    .err := by
  decide +kernel

/-! ## C47: the tables -/

/-- **C47.** Exactly the text "overlay" means an overlay. -/
theorem C47_overlay (s : List Char) : stringToLayerType s = if s = "overlay".toList then 1 else 0 := layer_overlay s

/-- **C47.** The names `String` gives, nothing for the others. -/
theorem C47_names : formatName PNG = "png".toList ∧ formatName JPG = "jpg".toList ∧ formatName PBF = "pbf".toList ∧ formatName WEBP = "webp".toList ∧
    formatName LERC = "lerc".toList ∧ formatName TIFF = "tiff".toList ∧ formatName TIF = "tif".toList ∧ formatName TERRAIN = "terrain".toList ∧
    formatName GZIP = [] ∧ formatName ZLIB = [] ∧ formatName UNKNOWN = [] ∧ ∀ f : ℕ, TIF < f → formatName f = [] := by
  refine ⟨by decide, by decide, by decide, by decide, by decide, by decide, by decide, by decide, by decide, by decide, by decide, ?_⟩
  intro f hf
  have hf : 10 < f := hf
  have : f ≠ PNG ∧ f ≠ JPG ∧ f ≠ PBF ∧ f ≠ WEBP ∧ f ≠ LERC ∧ f ≠ TIF ∧ f ≠ TIFF ∧ f ≠ TERRAIN := by
    unfold PNG JPG PBF WEBP LERC TIF TIFF TERRAIN; omega
  obtain ⟨a, b, c, d, e, h, i, j⟩ := this
  simp [formatName, a, b, c, d, e, h, i, j]

/-- **C47.** The media types. -/
theorem C47_media_types : contentType PNG = "image/png" ∧ contentType JPG = "image/jpeg" ∧ contentType PBF = "application/x-protobuf" ∧
    contentType WEBP = "image/webp" ∧ contentType LERC = "image/lerc" ∧ contentType TIF = "image/tif" ∧ contentType TIFF = "image/tiff" ∧
    contentType TERRAIN = "application/vnd.quantized-mesh" ∧ contentType GZIP = "" ∧ contentType ZLIB = "" ∧ contentType UNKNOWN = "" ∧
    [UNKNOWN, GZIP, ZLIB, PNG, JPG, PBF, WEBP, LERC, TIFF, TERRAIN, TIF].Nodup := by
  decide +kernel

end Verif.Mbtiles
