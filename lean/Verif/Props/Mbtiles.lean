import Verif.Proof.Mbtiles

/-!
# C43–C47: MBTiles (mbtiles/mbtiles.go, mbtiles/metadata.go)
-/
namespace Verif.Mbtiles
open Verif.Go

/-! ## C43: the tile store is a map -/

/-- A call of the API; `io` is whether the database manages to execute it. -/
inductive Op
  | store (z x y : Nat) (d : Blob) (io : Bool)
  | read (z x y : Nat) (io : Bool)
deriving DecidableEq, Repr

/-- The table after a history of calls, starting empty (`CreateDB`). -/
def run : List Op → List TileRow → List TileRow
  | [], t => t
  | .store z x y d io :: r, t => run r (storeTile t z x y d io).1
  | .read _ _ _ _ :: r, t => run r t

/-- Specification: the call is a store at exactly these coordinates that returned nil. -/
def StoresOK (z x y : Nat) : Op → Prop
  | .store z' x' y' _ io => z' = z ∧ x' = x ∧ y' = y ∧ io = true ∧ x' < 2 ^ 63 ∧ y' < 2 ^ 63
  | .read _ _ _ _ => False

instance (z x y : Nat) (o : Op) : Decidable (StoresOK z x y o) := by
  cases o <;> unfold StoresOK <;> infer_instance

theorem run_append (a b : List Op) (t : List TileRow) : run (a ++ b) t = run b (run a t) := by
  induction a generalizing t with
  | nil => rfl
  | cons o a ih => cases o <;> exact ih _

theorem find_storeTile (t : List TileRow) (z x y z' x' y' : Nat) (d : Blob) (io : Bool) :
    ((storeTile t z' x' y' d io).1.find? (fun r => r.z == z && r.x == x && r.y == y)) =
      if StoresOK z x y (.store z' x' y' d io) then some ⟨z', x', y', d⟩
      else t.find? (fun r => r.z == z && r.x == x && r.y == y) := by
  by_cases hs : sqlUint x' && sqlUint y' && io
  · have hs' : io = true ∧ x' < 2 ^ 63 ∧ y' < 2 ^ 63 := by
      simp only [sqlUint, Bool.and_eq_true, decide_eq_true_eq] at hs
      exact ⟨hs.2, by norm_num; omega, by norm_num; omega⟩
    simp only [storeTile, hs, if_true, List.find?_append]
    by_cases hk : z' = z ∧ x' = x ∧ y' = y
    · obtain ⟨rfl, rfl, rfl⟩ := hk
      have hnone : (t.filter (fun r => !(r.z == z' && r.x == x' && r.y == y'))).find?
          (fun r => r.z == z' && r.x == x' && r.y == y') = none := by
        rw [List.find?_eq_none]
        intro r hr
        have := (List.mem_filter.mp hr).2
        intro hc
        simp [hc] at this
      rw [hnone, if_pos ⟨rfl, rfl, rfl, hs'⟩]
      simp
    · have hno : ¬ StoresOK z x y (.store z' x' y' d io) := by
        intro h; exact hk ⟨h.1, h.2.1, h.2.2.1⟩
      have hf : (t.filter (fun r => !(r.z == z' && r.x == x' && r.y == y'))).find?
          (fun r => r.z == z && r.x == x && r.y == y)
          = t.find? (fun r => r.z == z && r.x == x && r.y == y) := by
        clear hno hs hs'
        induction t with
        | nil => rfl
        | cons r t ih =>
          by_cases hr : r.z = z ∧ r.x = x ∧ r.y = y
          · obtain ⟨rfl, rfl, rfl⟩ := hr
            have hkeep : (!(r.z == z' && r.x == x' && r.y == y')) = true := by
              simp only [Bool.not_eq_true', Bool.and_eq_false_iff, beq_eq_false_iff_ne, ne_eq]
              by_contra hc
              push Not at hc
              exact hk ⟨hc.1.1.symm, hc.1.2.symm, hc.2.symm⟩
            rw [List.filter_cons_of_pos (by simpa using hkeep)]
            simp
          · have hr' : (r.z == z && r.x == x && r.y == y) = false := by
              simp only [Bool.and_eq_false_iff, beq_eq_false_iff_ne, ne_eq]
              by_contra hc
              push Not at hc
              exact hr ⟨hc.1.1, hc.1.2, hc.2⟩
            rw [List.find?_cons_of_neg (by simp [hr']), List.filter_cons]
            split
            · rw [List.find?_cons_of_neg (by simp [hr'])]; exact ih
            · exact ih
      have hlast : ([⟨z', x', y', d⟩] : List TileRow).find?
          (fun r => r.z == z && r.x == x && r.y == y) = none := by
        rw [List.find?_eq_none]
        intro r hr
        simp only [List.mem_singleton] at hr
        subst hr
        simp only [Bool.and_eq_true, beq_iff_eq, not_and]
        intro h3 h4
        exact hk ⟨h3.1, h3.2, h4⟩
      rw [hf, hlast, if_neg hno]
      simp
  · have hno : ¬ StoresOK z x y (.store z' x' y' d io) := by
      intro h
      obtain ⟨_, _, _, h4, h5, h6⟩ := h
      apply hs
      norm_num at h5 h6
      simp [sqlUint, h4, h5, h6]
    simp only [storeTile, hs, hno, if_false, Bool.false_eq_true]

theorem find_run (post : List Op) (z x y : Nat) (hpost : ∀ o ∈ post, ¬ StoresOK z x y o) :
    ∀ t, (run post t).find? (fun r => r.z == z && r.x == x && r.y == y)
      = t.find? (fun r => r.z == z && r.x == x && r.y == y) := by
  induction post with
  | nil => intro t; rfl
  | cons o post ih =>
    intro t
    have ih' := ih (fun o ho => hpost o (by simp [ho]))
    cases o with
    | read => exact ih' t
    | store z' x' y' d io =>
      rw [run, ih', find_storeTile, if_neg (hpost (.store z' x' y' d io) (by simp))]

/-- **C43.** After any history, reading a tile gives the data of the last successful store at
exactly these coordinates. -/
theorem C43_read_last_store (pre post : List Op) (z x y : Nat) (d : Blob)
    (hx : x < 2 ^ 63) (hy : y < 2 ^ 63) (hpost : ∀ o ∈ post, ¬ StoresOK z x y o) :
    readTile (run (pre ++ .store z x y d true :: post) []) z x y true = .ok d := by
  have hs : (sqlUint x && sqlUint y && true) = true := by
    norm_num at hx hy; simp [sqlUint, hx, hy]
  rw [run_append, run]
  simp only [readTile, hs, if_true]
  rw [find_run post z x y hpost, find_storeTile, if_pos ⟨rfl, rfl, rfl, rfl, hx, hy⟩]

/-- **C43.** If no store at these coordinates succeeded, the result is nil without error. -/
theorem C43_read_absent (hist : List Op) (z x y : Nat) (hx : x < 2 ^ 63) (hy : y < 2 ^ 63)
    (h : ∀ o ∈ hist, ¬ StoresOK z x y o) :
    readTile (run hist []) z x y true = .ok none := by
  have hs : (sqlUint x && sqlUint y && true) = true := by
    norm_num at hx hy; simp [sqlUint, hx, hy]
  simp only [readTile, hs, if_true]
  rw [find_run hist z x y h]
  rfl

/-- **C43.** There is never more than one row per coordinate, whatever the history. -/
theorem C43_unique_rows (hist : List Op) :
    ((run hist []).map fun r => (r.z, r.x, r.y)).Nodup := by
  have key : ∀ (hist : List Op) (t : List TileRow), (t.map fun r => (r.z, r.x, r.y)).Nodup →
      ((run hist t).map fun r => (r.z, r.x, r.y)).Nodup := by
    intro hist
    induction hist with
    | nil => intro t h; exact h
    | cons o r ih =>
      intro t h
      cases o with
      | read => exact ih t h
      | store z x y d io =>
        apply ih
        by_cases hs : sqlUint x && sqlUint y && io
        · simp only [storeTile, hs, if_true, List.map_append, List.map_cons, List.map_nil]
          rw [List.nodup_append]
          refine ⟨(h.sublist (List.Sublist.map _ List.filter_sublist)), by simp, ?_⟩
          intro a ha b hb hab
          simp only [List.mem_singleton] at hb
          subst hb
          obtain ⟨r, hr, rfl⟩ := List.mem_map.mp ha
          have h2 := (List.mem_filter.mp hr).2
          simp only [Prod.mk.injEq] at hab
          simp [hab.1, hab.2.1, hab.2.2] at h2
        · simp only [storeTile, hs, if_false, Bool.false_eq_true]; exact h
  exact key hist [] (by simp)

/-- **C43.** A store that returns an error changes nothing, and a store succeeds exactly when the
database works and both coordinates are below 2^63 (above that database/sql refuses them). -/
theorem C43_store_result (t : List TileRow) (z x y : Nat) (d : Blob) (io : Bool) :
    ((storeTile t z x y d io).2 = true ↔ io = true ∧ x < 2 ^ 63 ∧ y < 2 ^ 63) ∧
    ((storeTile t z x y d io).2 = false → (storeTile t z x y d io).1 = t) := by
  by_cases hs : sqlUint x && sqlUint y && io
  · have hs2 := hs
    simp only [sqlUint, Bool.and_eq_true, decide_eq_true_eq] at hs2
    simp only [storeTile, hs, if_true]
    norm_num
    exact ⟨hs2.2, hs2.1.1, hs2.1.2⟩
  · simp only [storeTile, hs, if_false, Bool.false_eq_true, false_iff]
    refine ⟨?_, fun _ => trivial⟩
    rintro ⟨h1, h2, h3⟩
    norm_num at h2 h3
    exact hs (by simp [sqlUint, h1, h2, h3])

/-- **C43 (limit).** Storing nil cannot be told from not storing. -/
theorem C43_nil_tile_reads_as_absent (pre : List Op) (z x y : Nat) (hx : x < 2 ^ 63)
    (hy : y < 2 ^ 63) :
    readTile (run (pre ++ [.store z x y none true]) []) z x y true = .ok none :=
  C43_read_last_store pre [] z x y none hx hy (by simp)

/-- Witness: overwriting, a failed overwrite, another tile. -/
example : readTile (run [.store 1 0 0 (some [1]) true, .store 1 0 0 (some [2]) true,
    .store 1 0 0 (some [3]) false, .store 1 1 0 (some [4]) true] []) 1 0 0 true = .ok (some [2]) :=
  C43_read_last_store [.store 1 0 0 (some [1]) true] _ 1 0 0 _ (by norm_num) (by norm_num)
    (by intro o ho; simp at ho; rcases ho with rfl | rfl <;> simp [StoresOK])

/-! ## C44: metadata round trip -/

/-- What becomes of a resolution factor. -/
def resBack (rnd : ℚ → ℚ) : ResFactor → ResFactor
  | .nil => .nil
  | .other => .nil
  | .num q => .num (rnd (roundDec 8 q))
  | .str s => if s = [] then .nil else stringToResFactor rnd s

/-- Metadata the package can store faithfully: a known format and type, 64-bit numbers, layer data
whose JSON is not empty and can be parsed back. -/
structure Storable {LD : Type} (cd : Codec LD) (m : Metadata LD) : Prop where
  format : m.format ≤ 10
  type : m.type = 0 ∨ m.type = 1
  bounds : m.bounds.length = 4
  center : m.center.length = 3
  minZoom : IsI64 m.minZoom
  maxZoom : IsI64 m.maxZoom
  tileSize : ∀ t, m.tileSize = some t → IsI64 t.1 ∧ IsI64 t.2
  json : ∀ d, m.layerData = some d → cd.enc d ≠ [] ∧ ∃ d', cd.dec (cd.enc d) = some d'

theorem format_back (f : Nat) (hf : f ≤ 10) :
    ∃ s, tileFormatToString f = some s ∧ stringToTileFormat s = f ∧ (s = [] ↔ f = 0) := by
  interval_cases f <;> exact ⟨_, rfl, by decide +kernel, by decide +kernel⟩

theorem filter_entryIf (k : String) (v : List Char) :
    (entryIf k v).filter (fun r => decide (r.2 ≠ [])) = entryIf k v := by
  unfold entryIf
  split <;> simp_all

theorem putRows_txt {LD : Type} {rnd : ℚ → ℚ} {cd : Codec LD} (k : String) (v : List Char)
    (md md' : Metadata LD) (h1 : putRow rnd cd md (k, v) = .ok md') (h2 : v = [] → md' = md) :
    putRows rnd cd md (entryIf k v) = .ok md' := by
  unfold entryIf
  split
  · rename_i h; rw [h2 h]; rfl
  · simp only [putRows, h1, Res.bind]

/-- The metadata read back. -/
def readBack {LD : Type} (rnd : ℚ → ℚ) (cd : Codec LD) (m : Metadata LD) : Metadata LD where
  name := m.name
  format := m.format
  bounds := m.bounds.map fun q => rnd (roundDec 8 q)
  center := m.center.map fun q => rnd (roundDec 8 q)
  minZoom := m.minZoom
  maxZoom := m.maxZoom
  description := m.description
  version := []
  type := m.type
  attribution := []
  layerData := m.layerData.bind fun d => (cd.dec (cd.enc d)).getD none
  directoryLayout := m.directoryLayout
  origin := m.origin
  srs := m.srs
  boundsSrs := m.boundsSrs
  resFactor := resBack rnd m.resFactor
  tileSize := m.tileSize

section
variable {LD : Type} (rnd : ℚ → ℚ) (cd : Codec LD) (md : Metadata LD) (v : List Char)
theorem put_layout (h : md.directoryLayout = []) :
    putRows rnd cd md (entryIf "directory_layout" v) = .ok { md with directoryLayout := v } :=
  putRows_txt _ _ _ _ (by simp only [putRow]) (by rintro rfl; rw [← h])
theorem put_origin (h : md.origin = []) :
    putRows rnd cd md (entryIf "origin" v) = .ok { md with origin := v } :=
  putRows_txt _ _ _ _ (by simp only [putRow]) (by rintro rfl; rw [← h])
theorem put_srs (h : md.srs = []) :
    putRows rnd cd md (entryIf "srs" v) = .ok { md with srs := v } :=
  putRows_txt _ _ _ _ (by simp only [putRow]) (by rintro rfl; rw [← h])
theorem put_boundsSrs (h : md.boundsSrs = []) :
    putRows rnd cd md (entryIf "bounds_srs" v) = .ok { md with boundsSrs := v } :=
  putRows_txt _ _ _ _ (by simp only [putRow]) (by rintro rfl; rw [← h])
theorem put_name (h : md.name = []) :
    putRows rnd cd md (entryIf "name" v) = .ok { md with name := v } :=
  putRows_txt _ _ _ _ (by simp only [putRow]) (by rintro rfl; rw [← h])
theorem put_description (h : md.description = []) :
    putRows rnd cd md (entryIf "description" v) = .ok { md with description := v } :=
  putRows_txt _ _ _ _ (by simp only [putRow]) (by rintro rfl; rw [← h])
end

theorem bind_ok {α β : Type} (a : α) (f : α → Res β) : (Res.ok a).bind f = f a := rfl

theorem put_size {LD : Type} (rnd : ℚ → ℚ) (cd : Codec LD) (md : Metadata LD) (t : Int × Int)
    (h1 : IsI64 t.1) (h2 : IsI64 t.2) :
    putRows rnd cd md ((sizeEntry (some t)).filter fun r => decide (r.2 ≠ []))
      = .ok { md with tileSize := some t } := by
  have hne : tileSizeToString t ≠ [] := by
    simp only [tileSizeToString, join, ne_eq, List.append_eq_nil_iff, reduceCtorEq, and_false,
      not_false_eq_true]
  simp only [sizeEntry, List.filter_cons, hne, ne_eq, not_false_eq_true, decide_true, if_true,
    List.filter_nil, putRows, putRow]
  rw [stringToTileSize_back t h1 h2, bind_ok, bind_ok]

theorem putRows_canonical {LD : Type} (rnd : ℚ → ℚ) (cd : Codec LD) (m : Metadata LD)
    (hm : Storable cd m) :
    ∃ es, toMap cd m = some es ∧
      putRows rnd cd {} (es.filter fun r => r.2 ≠ []) = .ok (readBack rnd cd m) ∧
      (es.map Prod.fst).Nodup := by
  obtain ⟨f, hf1, hf2, hf3⟩ := format_back m.format hm.format
  obtain ⟨nm, fm, bd, ct, mn, mx, ds, vs, ty, at', ld, dl, og, sr, bs, rf, ts⟩ := m
  obtain ⟨hfmt, hty, hbd, hct, hmn, hmx, hts, hjs⟩ := hm
  simp only at *
  refine ⟨_, (by simp only [toMap, hf1]; rfl), ?_, ?_⟩
  · simp only [List.filter_append, putRows_append, filter_entryIf]
    rw [put_name rnd cd _ nm rfl, bind_ok]
    rw [put_description rnd cd _ ds rfl, bind_ok]
    have hc : floatsToString ct ≠ [] := by
      refine join_ne_nil _ ?_ ?_
      · intro h; rw [List.map_eq_nil_iff] at h; subst h; simp at hct
      · intro a ha; obtain ⟨q, _, rfl⟩ := List.mem_map.mp ha; exact formatF_ne_nil 8 q
    have hb : floatsToString bd ≠ [] := by
      refine join_ne_nil _ ?_ ?_
      · intro h; rw [List.map_eq_nil_iff] at h; subst h; simp at hbd
      · intro a ha; obtain ⟨q, _, rfl⟩ := List.mem_map.mp ha; exact formatF_ne_nil 8 q
    have hmid : ∀ md : Metadata LD, md.format = 0 → putRows rnd cd md
        (([("minzoom", itoa mn), ("maxzoom", itoa mx), ("center", floatsToString ct),
          ("bounds", floatsToString bd), ("type", layerTypeToString ty), ("format", f)] :
          List (String × List Char)).filter fun r => decide (r.2 ≠ []))
        = .ok { md with
          minZoom := mn
          maxZoom := mx
          center := ct.map fun q => rnd (roundDec 8 q)
          bounds := bd.map fun q => rnd (roundDec 8 q)
          type := ty
          format := fm } := by
      intro md hmd
      have h0 : layerTypeToString ty ≠ [] ∧ stringToLayerType (layerTypeToString ty) = ty := by
        rcases hty with rfl | rfl <;> decide +kernel
      by_cases hfe : f = []
      · have hfm : fm = 0 := hf3.mp hfe
        subst hfe
        simp only [List.filter_cons, itoa_ne_nil, hc, hb, h0.1, ne_eq, not_false_eq_true,
          decide_true, if_true, not_true_eq_false, decide_false, Bool.false_eq_true, if_false,
          List.filter_nil, putRows, putRow, atoi_itoa _ hmn, atoi_itoa _ hmx, bind_ok,
          stringToFloats_back rnd ct 3 hct (by norm_num),
          stringToFloats_back rnd bd 4 hbd (by norm_num), h0.2, hfm]
        rw [← hmd]
      · simp only [List.filter_cons, itoa_ne_nil, hc, hb, h0.1, hfe, ne_eq, not_false_eq_true,
          decide_true, if_true, List.filter_nil, putRows, putRow, atoi_itoa _ hmn,
          atoi_itoa _ hmx, bind_ok,
          stringToFloats_back rnd ct 3 hct (by norm_num),
          stringToFloats_back rnd bd 4 hbd (by norm_num), h0.2, hf2]
    rw [hmid _ rfl, bind_ok]
    have hld : ∀ md : Metadata LD, md.layerData = none → putRows rnd cd md
        ((jsonEntry cd ld).filter
          fun r => decide (r.2 ≠ []))
        = .ok { md with layerData := ld.bind fun d => (cd.dec (cd.enc d)).getD none } := by
      intro md hmd
      cases ld with
      | none => simp only [jsonEntry, List.filter_nil, putRows, Option.bind_none]; rw [← hmd]
      | some d =>
        obtain ⟨h1, d', h2⟩ := hjs d rfl
        simp only [jsonEntry, List.filter_cons, h1, ne_eq, not_false_eq_true, decide_true, if_true,
          List.filter_nil, putRows, putRow, h2, bind_ok, Option.bind_some, Option.getD_some, hmd, Codec.over]
    rw [hld _ rfl, bind_ok]
    rw [put_layout rnd cd _ dl rfl, bind_ok]
    rw [put_origin rnd cd _ og rfl, bind_ok]
    rw [put_srs rnd cd _ sr rfl, bind_ok]
    rw [put_boundsSrs rnd cd _ bs rfl, bind_ok]
    have hrf : ∀ md : Metadata LD, md.resFactor = .nil → putRows rnd cd md
        ((resEntry rf).filter
          fun r => decide (r.2 ≠ [])) = .ok { md with resFactor := resBack rnd rf } := by
      intro md hmd
      cases rf with
      | nil => simp only [resEntry, List.filter_nil, putRows, resBack]; rw [← hmd]
      | other =>
        simp only [resEntry, resFactorToString, List.filter_cons, ne_eq, not_true_eq_false, decide_false,
          Bool.false_eq_true, if_false, List.filter_nil, putRows, resBack]
        rw [← hmd]
      | num q =>
        simp only [resEntry, resFactorToString, List.filter_cons, formatF_ne_nil, ne_eq, not_false_eq_true,
          decide_true, if_true, List.filter_nil, putRows, putRow, bind_ok, resBack,
          stringToResFactor, formatF_ne_sqrt2, if_false, trimSpace_id formatF_plain.2,
          parseFloat_formatF]
      | str s =>
        by_cases hs : s = []
        · subst hs
          simp only [resEntry, resFactorToString, List.filter_cons, ne_eq, not_true_eq_false, decide_false,
            Bool.false_eq_true, if_false, List.filter_nil, putRows, resBack, if_true]
          rw [← hmd]
        · simp only [resEntry, resFactorToString, List.filter_cons, hs, ne_eq, not_false_eq_true,
            decide_true, if_true, List.filter_nil, putRows, putRow, bind_ok, resBack, if_false]
    rw [hrf _ rfl, bind_ok]
    cases ts with
    | none => simp only [sizeEntry, List.filter_nil, putRows, readBack]
    | some t =>
      have h12 := hts t rfl
      rw [put_size rnd cd _ t h12.1 h12.2]
      simp only [readBack]
  · have hsub : (List.map Prod.fst (entryIf "name" nm ++ entryIf "description" ds ++
          [("minzoom", itoa mn), ("maxzoom", itoa mx), ("center", floatsToString ct),
           ("bounds", floatsToString bd), ("type", layerTypeToString ty), ("format", f)] ++
          (jsonEntry cd ld) ++
          entryIf "directory_layout" dl ++ entryIf "origin" og ++ entryIf "srs" sr ++
          entryIf "bounds_srs" bs ++
          (resEntry rf) ++
          (sizeEntry ts))).Sublist
        (["name"] ++ ["description"] ++ ["minzoom", "maxzoom", "center", "bounds", "type", "format"]
          ++ ["json"] ++ ["directory_layout"] ++ ["origin"] ++ ["srs"] ++ ["bounds_srs"]
          ++ ["res_factor"] ++ ["tile_size"]) := by
      have he : ∀ k v, (List.map Prod.fst (entryIf k v)).Sublist [k] := by
        intro k v; unfold entryIf; split <;> simp
      simp only [List.map_append]
      refine List.Sublist.append (List.Sublist.append (List.Sublist.append (List.Sublist.append
        (List.Sublist.append (List.Sublist.append (List.Sublist.append (List.Sublist.append
        (List.Sublist.append (he _ _) (he _ _)) ?_) ?_) (he _ _)) (he _ _)) (he _ _)) (he _ _)) ?_) ?_
      · simp
      · cases ld <;> simp [jsonEntry]
      · cases rf <;> simp [resEntry]
      · cases ts <;> simp [sizeEntry]
    exact List.Nodup.sublist hsub (by decide)

/-- **C44.** For storable metadata with a non-zero largest zoom, `GetMetadata` after
`UpdateMetadata` gives — whatever order the map was iterated in when writing and the rows come back
in, and whatever tiles and earlier metadata there are — the same name, description, zooms, type,
format, layout, origin and reference systems and tile size; bounds and centre rounded to 8 decimals;
layer data as its JSON reads; but **no version and no attribution** (they are never written). -/
theorem C44_roundtrip {LD : Type} (rnd : ℚ → ℚ) (cd : Codec LD) (m : Metadata LD)
    (hm : Storable cd m) (hz : m.maxZoom ≠ 0) (old : Store) (hold : old.pending = none)
    (entries rows : List (String × List Char)) (tiles : List TileRow)
    (hmap : ∃ es, toMap cd m = some es ∧ entries.Perm es)
    (hrows : rows.Perm (updateMetadata old entries []).1.committed) :
    (updateMetadata old entries []).2 = true ∧
    ∃ m', getMetadata rnd cd rows tiles = .ok m' ∧
      m'.name = m.name ∧ m'.description = m.description ∧ m'.minZoom = m.minZoom ∧
      m'.maxZoom = m.maxZoom ∧ m'.type = m.type ∧ m'.format = m.format ∧
      m'.directoryLayout = m.directoryLayout ∧ m'.origin = m.origin ∧ m'.srs = m.srs ∧
      m'.boundsSrs = m.boundsSrs ∧ m'.tileSize = m.tileSize ∧
      m'.bounds = m.bounds.map (fun q => rnd (roundDec 8 q)) ∧
      m'.center = m.center.map (fun q => rnd (roundDec 8 q)) ∧
      m'.layerData = m.layerData.bind (fun d => (cd.dec (cd.enc d)).getD none) ∧
      m'.resFactor = resBack rnd m.resFactor ∧ m'.version = [] ∧ m'.attribution = [] := by
  obtain ⟨es, h1, h2, h3⟩ := putRows_canonical rnd cd m hm
  obtain ⟨es', h1', hp⟩ := hmap
  rw [h1] at h1'; cases h1'
  have hins : ∀ (l : List (String × List Char)) (c p : List (String × List Char)),
      runInserts ⟨c, some p⟩ l [] = (⟨c, some (p ++ l)⟩, true, []) := by
    intro l
    induction l with
    | nil => intro c p; simp [runInserts]
    | cons e l ih =>
      intro c p
      simp only [runInserts, List.headD_nil, if_true, Store.exec, List.tail_nil]
      rw [ih]; simp
  have hu : updateMetadata old entries [] = (⟨entries, none⟩, true) := by
    simp only [updateMetadata, List.headD_nil, if_true, List.tail_nil, Store.exec, hold]
    rw [hins]
    simp
  rw [hu] at hrows ⊢
  refine ⟨rfl, readBack rnd cd m, ?_, rfl, rfl, rfl, rfl, rfl, rfl, rfl, rfl, rfl, rfl, rfl, rfl,
    rfl, rfl, rfl, rfl, rfl⟩
  have hperm : (rows.filter fun r => decide (r.2 ≠ [])).Perm
      (es.filter fun r => decide (r.2 ≠ [])) := (hrows.trans hp).filter _
  have h4 := putRows_perm rnd cd {} _ _ _ hperm
    (h3.sublist (List.Sublist.map _ List.filter_sublist)) h2
  unfold getMetadata
  rw [h4]
  simp only [Res.bind, readBack, hz, if_false]

/-- **C44.** Each stored coordinate comes back within half a unit of the eighth decimal
(exact arithmetic; with float64 the read value is the float64 nearest to such a number). -/
theorem C44_coordinate_error (q : ℚ) : |roundDec 8 q - q| ≤ 1 / 2 / 10 ^ 8 := by
  have := roundDec_err 8 q
  push_cast at this
  exact this

/-- **C44.** A second round trip changes nothing more (exact arithmetic). -/
theorem C44_second_roundtrip_stable (q : ℚ) : roundDec 8 (roundDec 8 q) = roundDec 8 q := by
  have hP : ((10 ^ 8 : ℕ) : ℚ) = 100000000 := by norm_num
  have key : ∀ (n : ℤ), roundDec 8 ((n : ℚ) / 100000000) = (n : ℚ) / 100000000 := by
    intro n
    unfold roundDec
    rw [hP]
    split_ifs with h
    · rw [abs_of_neg h]
      have : -((n : ℚ) / 100000000) * 100000000 = ((-n : ℤ) : ℚ) := by push_cast; ring
      rw [this, F64.rne_int]; push_cast; ring
    · rw [abs_of_nonneg (not_lt.mp h)]
      have : ((n : ℚ) / 100000000) * 100000000 = ((n : ℤ) : ℚ) := by ring
      rw [this, F64.rne_int]; ring
  conv_lhs => rw [show roundDec 8 q = (((if q < 0 then -1 else 1) *
    F64.rne (|q| * (10 ^ 8 : ℕ)) : ℤ) : ℚ) / 100000000 from by
      unfold roundDec; rw [hP]; split_ifs <;> push_cast <;> ring]
  rw [key]
  unfold roundDec
  rw [hP]; split_ifs <;> push_cast <;> ring

/-- Specification of the fall-back zooms: the smallest and largest zoom of the stored tiles. -/
theorem zoomRange_spec (tiles : List TileRow) (h : tiles ≠ []) :
    ∃ mn mx, zoomRange tiles = some (mn, mx) ∧ (∃ r ∈ tiles, (r.z : Int) = mn) ∧
      (∃ r ∈ tiles, (r.z : Int) = mx) ∧ ∀ r ∈ tiles, mn ≤ r.z ∧ (r.z : Int) ≤ mx := by
  cases tiles with
  | nil => exact absurd rfl h
  | cons r rs =>
    have key : ∀ (rs seen : List TileRow) (p : Int × Int),
        (∃ r ∈ seen, (r.z : Int) = p.1) → (∃ r ∈ seen, (r.z : Int) = p.2) →
        (∀ r ∈ seen, p.1 ≤ r.z ∧ (r.z : Int) ≤ p.2) →
        let q := rs.foldl (fun (p : Int × Int) r => (min p.1 r.z, max p.2 r.z)) p
        (∃ r ∈ seen ++ rs, (r.z : Int) = q.1) ∧ (∃ r ∈ seen ++ rs, (r.z : Int) = q.2) ∧
        (∀ r ∈ seen ++ rs, q.1 ≤ r.z ∧ (r.z : Int) ≤ q.2) := by
      intro rs
      induction rs with
      | nil => intro seen p h1 h2 h3; simpa using ⟨h1, h2, h3⟩
      | cons a rs ih =>
        intro seen p h1 h2 h3
        have := ih (seen ++ [a]) (min p.1 a.z, max p.2 a.z) ?_ ?_ ?_
        · simpa using this
        · rcases le_total p.1 (a.z : Int) with hle | hle
          · obtain ⟨r, hr, he⟩ := h1; exact ⟨r, by simp [hr], by simp [he, hle]⟩
          · exact ⟨a, by simp, by simp [hle]⟩
        · rcases le_total p.2 (a.z : Int) with hle | hle
          · exact ⟨a, by simp, by simp [hle]⟩
          · obtain ⟨r, hr, he⟩ := h2; exact ⟨r, by simp [hr], by simp [he, hle]⟩
        · intro r hr
          simp only [List.mem_append, List.mem_singleton] at hr
          rcases hr with hr | rfl
          · have := h3 r hr; simp; omega
          · simp
    have := key rs [r] ((r.z : Int), (r.z : Int)) ⟨r, by simp, rfl⟩ ⟨r, by simp, rfl⟩ (by simp)
    exact ⟨_, _, rfl, this.1, this.2.1, this.2.2⟩

/-- **C44.** When the rows give no largest zoom (or 0) the zooms are those of the stored tiles; with
no tiles at all `GetMetadata` fails. -/
theorem C44_zoom_fallback {LD : Type} (rnd : ℚ → ℚ) (cd : Codec LD)
    (rows : List (String × List Char)) (md : Metadata LD)
    (h : putRows rnd cd {} (rows.filter fun r => r.2 ≠ []) = .ok md) (h0 : md.maxZoom = 0)
    (tiles : List TileRow) :
    (tiles = [] → getMetadata rnd cd rows tiles = .err) ∧
    (tiles ≠ [] → ∃ m', getMetadata rnd cd rows tiles = .ok m' ∧
      (∃ r ∈ tiles, (r.z : Int) = m'.minZoom) ∧ (∃ r ∈ tiles, (r.z : Int) = m'.maxZoom) ∧
      ∀ r ∈ tiles, m'.minZoom ≤ r.z ∧ (r.z : Int) ≤ m'.maxZoom) := by
  constructor
  · rintro rfl
    unfold getMetadata
    rw [h]
    simp [Res.bind, h0, zoomRange]
  · intro ht
    obtain ⟨mn, mx, h1, h2, h3, h4⟩ := zoomRange_spec tiles ht
    refine ⟨{ md with minZoom := mn, maxZoom := mx }, ?_, h2, h3, h4⟩
    unfold getMetadata
    rw [h]
    simp [Res.bind, h0, h1]

/-- **C44 (limit).** An unreadable component of `bounds` that is not the last one is silently read as
0: only the last component's error survives. -/
theorem C44_bad_component_masked :
    stringToFloats id 4 "x,2,3,4".toList = .ok [0, 2, 3, 4] ∧
    stringToFloats id 4 "1,2,3,x".toList = .err := by decide +kernel

/-- **C44 (limit).** More than four components in `bounds` make `GetMetadata` panic. -/
theorem C44_five_components_panic {LD : Type} (cd : Codec LD) (tiles : List TileRow) :
    getMetadata id cd [("bounds", "1,2,3,4,5".toList)] tiles = .panic := by
  have h : stringToFloats id 4 "1,2,3,4,5".toList = .panic := by decide +kernel
  have hf : ([("bounds", "1,2,3,4,5".toList)] : List (String × List Char)).filter
      (fun r => decide (r.2 ≠ [])) = [("bounds", "1,2,3,4,5".toList)] := by decide
  unfold getMetadata
  rw [hf]
  simp only [putRows, putRow, h, Res.bind]

/-- Witness of a storable metadata with every kind of field. -/
def sampleMD : Metadata Unit where
  name := "n".toList
  format := PNG
  bounds := [-180, -85, 180, 85 + 1 / 3]
  center := [0, 1 / 7, 5]
  minZoom := 1
  maxZoom := 14
  version := "1.0".toList
  layerData := some ()
  resFactor := .str "sqrt2".toList
  tileSize := some (256, 512)
  type := 1

def sampleCodec : Codec Unit := ⟨fun _ => "{}".toList, fun _ => some (some ()), fun _ _ => some ()⟩

example : Storable sampleCodec sampleMD ∧ sampleMD.maxZoom ≠ 0 :=
  ⟨⟨by decide, by decide, by decide, by decide, by decide, by decide,
    by rintro t ⟨⟩; decide, by rintro ⟨⟩ _; exact ⟨by decide, some (), rfl⟩⟩, by decide⟩

/-! ## C45: crash during a metadata update -/

/-- **C45.** Whatever statement the process stops at, the stored metadata is the old one, nothing,
or the new one. -/
theorem C45_crash_states (old new : List (String × List Char)) (n : Nat) :
    (((updateStmts new).take n).foldl Store.exec ⟨old, none⟩).afterCrash = old ∨
    (((updateStmts new).take n).foldl Store.exec ⟨old, none⟩).afterCrash = [] ∨
    (((updateStmts new).take n).foldl Store.exec ⟨old, none⟩).afterCrash = new := by
  match n with
  | 0 => left; rfl
  | 1 => right; left; rfl
  | n + 2 =>
    have hrest : ∀ (l : List (String × List Char)) (p : List (String × List Char)) (n : Nat),
        ((((l.map fun e => Stmt.insert e.1 e.2) ++ [Stmt.commit]).take n).foldl Store.exec
          ⟨[], some p⟩).committed = [] ∨
        ((((l.map fun e => Stmt.insert e.1 e.2) ++ [Stmt.commit]).take n).foldl Store.exec
          ⟨[], some p⟩).committed = p ++ l := by
      intro l
      induction l with
      | nil =>
        intro p n
        cases n with
        | zero => left; rfl
        | succ n => right; simp [Store.exec]
      | cons e l ih =>
        intro p n
        cases n with
        | zero => left; rfl
        | succ n =>
          have := ih (p ++ [e]) n
          simp only [List.map_cons, List.cons_append, List.take_succ_cons, List.foldl_cons,
            Store.exec]
          simpa using this
    have := hrest new [] n
    right
    simpa [updateStmts, Store.exec, Store.afterCrash] using this

/-- **C45 (false).** The intermediate state is reachable: stopping right after the first statement
loses all metadata, whatever they were. -/
theorem C45_false (old new : List (String × List Char)) :
    (((updateStmts new).take 1).foldl Store.exec ⟨old, none⟩).afterCrash = [] := rfl

/-- **C45.** A run to the end stores the new metadata. -/
theorem C45_complete_run (old new : List (String × List Char)) :
    ((updateStmts new).foldl Store.exec ⟨old, none⟩).afterCrash = new := by
  have : ∀ (l p : List (String × List Char)),
      (((l.map fun e => Stmt.insert e.1 e.2) ++ [Stmt.commit]).foldl Store.exec
        ⟨[], some p⟩).committed = p ++ l := by
    intro l
    induction l with
    | nil => intro p; simp [Store.exec]
    | cons e l ih =>
      intro p
      simp only [List.map_cons, List.cons_append, List.foldl_cons, Store.exec]
      rw [ih]; simp
  simpa [updateStmts, Store.exec, Store.afterCrash] using this new []

/-- **C45 (false).** `UpdateMetadata` can return nil although nothing was stored: the error of the
commit is dropped. -/
theorem C45_success_without_commit (old : List (String × List Char)) :
    ∃ io, (updateMetadata ⟨old, none⟩ [("name", "n".toList)] io).2 = true ∧
      (updateMetadata ⟨old, none⟩ [("name", "n".toList)] io).1.afterCrash = [] :=
  ⟨[true, true, true, false], rfl, rfl⟩

/-- **C45.** `UpdateMetadata` returns nil exactly if none of its statements before the commit (the deletion, the begin and one
insertion per entry) failed; the outcome of the commit does not matter. -/
theorem C45_reports (s : Store) (new : List (String × List Char)) (io : List Bool) :
    (updateMetadata s new io).2 = true ↔ ∀ i : Nat, i < new.length + 2 → io.getD i true = true := by
  have hins : ∀ (l : List (String × List Char)) (s : Store) (io : List Bool),
      (runInserts s l io).2.1 = true ↔ ∀ i : Nat, i < l.length → io.getD i true = true := by
    intro l
    induction l with
    | nil => intro s io; simp [runInserts]
    | cons e l ih =>
      intro s io
      simp only [runInserts]
      cases io with
      | nil => simp [ih]
      | cons b io =>
        cases b
        · simp only [List.headD_cons, Bool.false_eq_true, if_false, false_iff, not_forall]
          exact ⟨0, by simp, by simp⟩
        · simp only [List.headD_cons, if_true, List.tail_cons, ih]
          constructor
          · intro h i hi
            cases i with
            | zero => rfl
            | succ i => simpa using h i (by simpa using hi)
          · intro h i hi
            simpa using h (i + 1) (by simpa using hi)
  have split2 : (∀ i : Nat, i < new.length + 2 → io.getD i true = true) ↔
      io.headD true = true ∧ io.tail.headD true = true ∧ ∀ i : Nat, i < new.length → io.tail.tail.getD i true = true := by
    constructor
    · intro h
      refine ⟨?_, ?_, fun i hi => ?_⟩
      · have := h 0 (by omega); cases io <;> simp_all
      · have := h 1 (by omega)
        match io with
        | [] => rfl
        | [_] => rfl
        | _ :: _ :: _ => simpa using this
      · have := h (i + 2) (by omega)
        match io with
        | [] => simp
        | [_] => simp
        | _ :: _ :: _ => simpa using this
    · rintro ⟨h0, h1, h2⟩ i hi
      match io, i with
      | [], i => simp
      | b :: io, 0 => simpa using h0
      | [_], i + 1 => simp
      | _ :: b :: io, 1 => simpa using h1
      | _ :: _ :: io, i + 2 => simpa using h2 i (by omega)
  rw [split2, ← hins new (s.exec .deleteAll |>.exec .begin)]
  unfold updateMetadata
  cases io.headD true
  · simp
  · cases io.tail.headD true
    · simp
    · simp only [if_true, true_and]
      generalize runInserts _ new io.tail.tail = r
      obtain ⟨s3, b, io'⟩ := r
      cases b
      · simp
      · simp only [iff_true]
        split <;> rfl

/-- **C45.** With database errors instead of a crash the outcomes are the same three: an error may
leave the old metadata or none, never a mixture. -/
theorem C45_error_states (old new : List (String × List Char)) (io : List Bool) :
    (updateMetadata ⟨old, none⟩ new io).1.afterCrash = old ∨
    (updateMetadata ⟨old, none⟩ new io).1.afterCrash = [] ∨
    (updateMetadata ⟨old, none⟩ new io).1.afterCrash = new := by
  have hins : ∀ (l p : List (String × List Char)) (io : List Bool),
      (∃ p' io', runInserts ⟨[], some p⟩ l io = (⟨[], some p'⟩, false, io')) ∨
      (∃ io', runInserts ⟨[], some p⟩ l io = (⟨[], some (p ++ l)⟩, true, io')) := by
    intro l
    induction l with
    | nil => intro p io; right; exact ⟨io, by simp [runInserts]⟩
    | cons e l ih =>
      intro p io
      simp only [runInserts]
      split
      · simp only [Store.exec]
        have := ih (p ++ [e]) io.tail
        simpa using this
      · left; exact ⟨p, _, rfl⟩
  unfold updateMetadata
  split
  · split
    · right
      simp only [Store.exec]
      rcases hins new [] io.tail.tail with ⟨p', io', h⟩ | ⟨io', h⟩
      · rw [h]; left; rfl
      · rw [h]
        dsimp only
        split
        · right; simp [Store.exec, Store.afterCrash]
        · left; rfl
    · right; left; rfl
  · left; rfl

/-- **C45.** `UpdateMetadata` of metadata whose format is beyond the table (above 10) panics after the deletion: when the database
works the old metadata are lost; with another format it never panics. -/
theorem C45_unknown_format {LD : Type} (cd : Codec LD) (order : List (String × List Char) → List (String × List Char))
    (old : List (String × List Char)) (m : Metadata LD) (io : List Bool) :
    (11 ≤ m.format → (io.headD true = true → io.tail.headD true = true → (updateMd cd order ⟨old, none⟩ m io).2 = .panic) ∧
      (io.headD true = true → (updateMd cd order ⟨old, none⟩ m io).1.afterCrash = []) ∧
      (io.headD true = false → updateMd cd order ⟨old, none⟩ m io = (⟨old, none⟩, .err))) ∧
    (m.format < 11 → (updateMd cd order ⟨old, none⟩ m io).2 ≠ .panic) := by
  have len : formatStrings.length = 11 := by decide
  constructor
  · intro h
    have hm : toMap cd m = none := by
      unfold toMap tileFormatToString
      rw [List.getElem?_eq_none (by rw [len]; exact h)]
    unfold updateMd
    rw [hm]
    refine ⟨fun h0 h1 => ?_, fun h0 => ?_, fun h0 => ?_⟩
    · rw [if_pos h0, if_pos h1]
    · rw [if_pos h0]
      by_cases h1 : io.tail.headD true = true
      · rw [if_pos h1]; rfl
      · rw [if_neg h1]; rfl
    · rw [if_neg (by rw [h0]; simp)]
  · intro h
    obtain ⟨es, hm⟩ : ∃ es, toMap cd m = some es := by
      unfold toMap tileFormatToString
      rw [List.getElem?_eq_getElem (by rw [len]; exact h)]
      exact ⟨_, rfl⟩
    unfold updateMd
    rw [hm]
    simp only
    split <;> simp

/-- **C45.** With a known format it is the update with the entries of `ToMap` in the map's order. -/
theorem C45_update_entries {LD : Type} (cd : Codec LD) (order : List (String × List Char) → List (String × List Char))
    (ho : ∀ l, (order l).Perm l) (s : Store) (m : Metadata LD) (io : List Bool) (h : m.format < 11) :
    ∃ es entries, toMap cd m = some es ∧ entries.Perm es ∧ (updateMd cd order s m io).1 = (updateMetadata s entries io).1 ∧
      ((updateMd cd order s m io).2 = .ok () ↔ (updateMetadata s entries io).2 = true) := by
  have len : formatStrings.length = 11 := by decide
  obtain ⟨es, hm⟩ : ∃ es, toMap cd m = some es := by
    unfold toMap tileFormatToString
    rw [List.getElem?_eq_getElem (by rw [len]; exact h)]
    exact ⟨_, rfl⟩
  refine ⟨es, order es, hm, ho es, ?_, ?_⟩
  · unfold updateMd; rw [hm]
  · unfold updateMd; rw [hm]
    simp only
    cases (updateMetadata s (order es) io).2 <;> simp

/-! ## C46: sniffing -/

theorem sniff_spec (data : List Nat) (l : List (TileFormat × List (List Nat))) (f : TileFormat) :
    sniff data l = some f → ∃ pats, (f, pats) ∈ l ∧ ∃ p ∈ pats, p <+: data := by
  induction l with
  | nil => intro h; simp [sniff] at h
  | cons a l ih =>
    intro h
    obtain ⟨f', pats⟩ := a
    simp only [sniff] at h
    split at h
    · rename_i hany
      cases h
      obtain ⟨p, hp1, hp2⟩ := List.any_eq_true.mp hany
      exact ⟨pats, by simp, p, hp1, List.isPrefixOf_iff_prefix.mp hp2⟩
    · obtain ⟨pats', h1, h2⟩ := ih h
      exact ⟨pats', by simp [h1], h2⟩

theorem sniff_none (data : List Nat) (l : List (TileFormat × List (List Nat)))
    (h : sniff data l = none) : ∀ e ∈ l, ∀ p ∈ e.2, ¬ p <+: data := by
  induction l with
  | nil => simp
  | cons a l ih =>
    obtain ⟨f', pats⟩ := a
    simp only [sniff] at h
    split at h
    · cases h
    · rename_i hany
      intro e he p hp
      rcases List.mem_cons.mp he with rfl | he
      · intro hpre
        apply hany
        exact List.any_eq_true.mpr ⟨p, hp, List.isPrefixOf_iff_prefix.mpr hpre⟩
      · exact ih h e he p hp

/-- No magic prefix starts another one of a different format. -/
theorem patterns_exclusive : ∀ a ∈ patterns, ∀ b ∈ patterns, ∀ p ∈ a.2, ∀ q ∈ b.2,
    p <+: q → a.1 = b.1 := by
  simp only [← List.isPrefixOf_iff_prefix]
  decide +kernel

/-- The magic prefixes, spelled out: specification of "starts like format f". -/
def StartsLike (data : List Nat) (f : TileFormat) : Prop :=
  (f = GZIP ∧ [0x1f, 0x8b] <+: data) ∨ (f = ZLIB ∧ [0x78, 0x9c] <+: data) ∨
  (f = PNG ∧ [137, 80, 78, 71, 13, 10, 26, 10] <+: data) ∨
  (f = JPG ∧ [255, 216, 255] <+: data) ∨
  (f = WEBP ∧ [82, 73, 70, 70, 192, 0, 0, 0, 87, 69, 66, 80, 86, 80] <+: data) ∨
  (f = LERC ∧ ([67, 110, 116, 90, 73, 109, 97, 103, 101, 32] <+: data ∨
    [76, 101, 114, 99, 50, 32] <+: data)) ∨
  (f = TIFF ∧ ([77, 77] <+: data ∨ [73, 73] <+: data))

theorem startsLike_iff (data : List Nat) (f : TileFormat) :
    StartsLike data f ↔ ∃ pats, (f, pats) ∈ patterns ∧ ∃ p ∈ pats, p <+: data := by
  unfold StartsLike patterns
  constructor
  · rintro (⟨rfl, h⟩ | ⟨rfl, h⟩ | ⟨rfl, h⟩ | ⟨rfl, h⟩ | ⟨rfl, h⟩ | ⟨rfl, h⟩ | ⟨rfl, h⟩)
    · exact ⟨[[0x1f, 0x8b]], by simp, _, by simp, h⟩
    · exact ⟨[[0x78, 0x9c]], by simp, _, by simp, h⟩
    · exact ⟨[[0x89, 0x50, 0x4E, 0x47, 0x0D, 0x0A, 0x1A, 0x0A]], by simp, _, by simp, h⟩
    · exact ⟨[[0xFF, 0xD8, 0xFF]], by simp, _, by simp, h⟩
    · exact ⟨[[0x52, 0x49, 0x46, 0x46, 0xc0, 0x00, 0x00, 0x00, 0x57, 0x45, 0x42, 0x50, 0x56, 0x50]],
        by simp, _, by simp, h⟩
    · rcases h with h | h
      · exact ⟨[[0x43, 0x6E, 0x74, 0x5A, 0x49, 0x6D, 0x61, 0x67, 0x65, 0x20],
           [0x4C, 0x65, 0x72, 0x63, 0x32, 0x20]], by simp, _, by simp, h⟩
      · exact ⟨[[0x43, 0x6E, 0x74, 0x5A, 0x49, 0x6D, 0x61, 0x67, 0x65, 0x20],
           [0x4C, 0x65, 0x72, 0x63, 0x32, 0x20]], by simp, _, by simp, h⟩
    · rcases h with h | h
      · exact ⟨[[0x4D, 0x4D], [0x49, 0x49]], by simp, _, by simp, h⟩
      · exact ⟨[[0x4D, 0x4D], [0x49, 0x49]], by simp, _, by simp, h⟩
  · rintro ⟨pats, hm, p, hp, hpre⟩
    simp only [List.mem_cons, Prod.mk.injEq, List.not_mem_nil, or_false] at hm
    rcases hm with ⟨rfl, rfl⟩ | ⟨rfl, rfl⟩ | ⟨rfl, rfl⟩ | ⟨rfl, rfl⟩ | ⟨rfl, rfl⟩ | ⟨rfl, rfl⟩ |
      ⟨rfl, rfl⟩ <;> simp only [List.mem_cons, List.not_mem_nil, or_false] at hp
    · subst hp; simp [hpre]
    · subst hp; simp [hpre]
    · subst hp; simp [hpre]
    · subst hp; simp [hpre]
    · subst hp; simp [hpre]
    · rcases hp with rfl | rfl <;> simp [hpre]
    · rcases hp with rfl | rfl <;> simp [hpre]

/-- A byte string starts like at most one format. -/
theorem startsLike_unique (data : List Nat) (f g : TileFormat) (hf : StartsLike data f)
    (hg : StartsLike data g) : f = g := by
  rw [startsLike_iff] at hf hg
  obtain ⟨pf, h1, p, h2, h3⟩ := hf
  obtain ⟨pg, k1, q, k2, k3⟩ := hg
  rcases List.prefix_or_prefix_of_prefix h3 k3 with h | h
  · exact patterns_exclusive _ h1 _ k1 p h2 q k2 h
  · exact (patterns_exclusive _ k1 _ h1 q k2 p h2 h).symm

theorem sniff_iff (order : List (TileFormat × List (List Nat))) (ho : order.Perm patterns)
    (data : List Nat) (f : TileFormat) : sniff data order = some f ↔ StartsLike data f := by
  constructor
  · intro h
    obtain ⟨pats, h1, h2⟩ := sniff_spec data order f h
    exact (startsLike_iff data f).mpr ⟨pats, ho.mem_iff.mp h1, h2⟩
  · intro h
    cases hs : sniff data order with
    | none =>
      obtain ⟨pats, h1, p, h2, h3⟩ := (startsLike_iff data f).mp h
      exact absurd h3 (sniff_none data order hs (f, pats) (ho.mem_iff.mpr h1) p h2)
    | some g =>
      obtain ⟨pats, h1, h2⟩ := sniff_spec data order g hs
      have hg := (startsLike_iff data g).mpr ⟨pats, ho.mem_iff.mp h1, h2⟩
      rw [startsLike_unique data f g h hg]

/-- **C46.** Sniffing does not depend on the order in which Go iterates over the pattern map. -/
theorem C46_order_independent (o1 o2 : List (TileFormat × List (List Nat)))
    (h1 : o1.Perm patterns) (h2 : o2.Perm patterns) (data : List Nat) :
    detect o1 data = detect o2 data := by
  have : sniff data o1 = sniff data o2 := by
    cases hs : sniff data o1 with
    | none =>
      cases hs2 : sniff data o2 with
      | none => rfl
      | some g =>
        have := (sniff_iff o1 h1 data g).mpr ((sniff_iff o2 h2 data g).mp hs2)
        rw [hs] at this; cases this
    | some f => exact ((sniff_iff o2 h2 data f).mpr ((sniff_iff o1 h1 data f).mp hs)).symm
  simp only [detect, this]

/-- **C46.** A format other than terrain is reported exactly for data starting with one of its
magic prefixes. -/
theorem C46_exact_prefixes (order : List (TileFormat × List (List Nat))) (ho : order.Perm patterns)
    (data : List Nat) (f : TileFormat) (hf : f ≠ TERRAIN) :
    detect order data = some f ↔ StartsLike data f := by
  rw [← sniff_iff order ho]
  unfold detect
  cases sniff data order with
  | some g => simp
  | none =>
    simp only [reduceCtorEq, iff_false]
    split
    · simp
    · split
      · simp only [Option.some.injEq]; exact fun h => hf h.symm
      · simp

/-- **C46.** Terrain is reported exactly for data with no magic prefix, at least 88 bytes long,
whose header has the bounding sphere centred at the tile centre (float comparison). -/
theorem C46_terrain (order : List (TileFormat × List (List Nat))) (ho : order.Perm patterns)
    (data : List Nat) :
    detect order data = some TERRAIN ↔
      (∀ f, ¬ StartsLike data f) ∧ 88 ≤ data.length ∧
      feq (le64 data 0) (le64 data 32) = true ∧ feq (le64 data 8) (le64 data 40) = true ∧
      feq (le64 data 16) (le64 data 48) = true := by
  have hT : ¬ StartsLike data TERRAIN := by
    unfold StartsLike
    simp [TERRAIN, GZIP, ZLIB, PNG, JPG, WEBP, LERC, TIFF]
  unfold detect
  cases hs : sniff data order with
  | some g =>
    have hg := (sniff_iff order ho data g).mp hs
    simp only [Option.some.injEq]
    constructor
    · rintro rfl; exact absurd hg hT
    · intro h; exact absurd hg (h.1 g)
  | none =>
    have hno : ∀ f, ¬ StartsLike data f := by
      intro f hf
      rw [← sniff_iff order ho, hs] at hf
      cases hf
    dsimp only
    split
    · rename_i hl
      simp only [reduceCtorEq, false_iff]
      intro h; omega
    · rename_i hl
      split
      · rename_i hc
        simp only [Bool.and_eq_true] at hc
        simp only [true_iff]
        exact ⟨hno, by omega, hc.1.1, hc.1.2, hc.2⟩
      · rename_i hc
        simp only [reduceCtorEq, false_iff]
        rintro ⟨_, _, a, b, c⟩
        exact hc (by simp [a, b, c])

/-- **C46 (limit).** A WebP file is recognised only if its length field is exactly 192: any other
RIFF/WEBP data is not. -/
theorem C46_webp_only_192 (order : List (TileFormat × List (List Nat))) (ho : order.Perm patterns)
    (l0 l1 l2 l3 : Nat) (rest : List Nat) (hl : ¬ (l0 = 192 ∧ l1 = 0 ∧ l2 = 0 ∧ l3 = 0)) :
    detect order ([82, 73, 70, 70, l0, l1, l2, l3, 87, 69, 66, 80] ++ rest) ≠ some WEBP := by
  intro h
  rw [C46_exact_prefixes order ho _ _ (by decide)] at h
  unfold StartsLike at h
  simp [WEBP, GZIP, ZLIB, PNG, JPG, LERC, TIFF] at h
  omega

/-- **C46 (limit).** A quantized mesh whose first coordinate happens to begin with the bytes of
another format is taken for that format. -/
theorem C46_mesh_misread (rest : List Nat) (order : List (TileFormat × List (List Nat)))
    (ho : order.Perm patterns) : detect order (0x49 :: 0x49 :: rest) = some TIFF := by
  rw [C46_exact_prefixes order ho _ _ (by decide)]
  unfold StartsLike
  simp [TIFF, GZIP, ZLIB, PNG, JPG, LERC, WEBP]

/-- **C46.** `NewDB` fails on a tileset without tiles — such as one just made by `CreateDB`. -/
theorem C46_open_empty_fails (order : List (TileFormat × List (List Nat))) :
    newDBFormat order none = none := rfl

example : detect patterns [0x1f, 0x8b, 8, 0] = some GZIP ∧
    newDBFormat patterns (some [0x1f, 0x8b, 8, 0]) = some PBF ∧
    detect patterns (List.replicate 88 0) = some TERRAIN ∧ detect patterns [1, 2, 3] = none := by
  decide +kernel

/-! ## C47: name tables -/

theorem indexFrom_spec (s : List Char) : ∀ (l : List (List Char)) (i j : Nat),
    indexFrom s i l = some j → ∃ k, j = i + k ∧ l[k]? = some s
  | [], _, _, h => by simp [indexFrom] at h
  | a :: l, i, j, h => by
    simp only [indexFrom] at h
    split at h
    · rename_i ha
      cases h; exact ⟨0, by simp, by simp [ha]⟩
    · obtain ⟨k, hk1, hk2⟩ := indexFrom_spec s l (i + 1) j h
      exact ⟨k + 1, by omega, by simpa using hk2⟩

/-- **C47.** Every format's stored name reads back as that format. -/
theorem C47_format_roundtrip (f : TileFormat) (s : List Char) (h : tileFormatToString f = some s) :
    stringToTileFormat s = f := by
  have hf : f ≤ 10 := by
    unfold tileFormatToString at h
    have := List.getElem?_eq_some_iff.mp h
    obtain ⟨hl, _⟩ := this
    exact Nat.lt_succ_iff.mp hl
  obtain ⟨s', h1, h2, _⟩ := format_back f hf
  rw [h1] at h; cases h; exact h2

/-- **C47.** A name that reads as a known format is the stored name of that format; everything else
reads as unknown. -/
theorem C47_unknown_names (s : List Char) (h : stringToTileFormat s ≠ UNKNOWN) :
    tileFormatToString (stringToTileFormat s) = some s := by
  unfold stringToTileFormat at *
  cases hi : indexFrom s 0 formatStrings with
  | none => rw [hi] at h; exact absurd rfl h
  | some j =>
    obtain ⟨k, hk1, hk2⟩ := indexFrom_spec s _ _ _ hi
    simp only [Option.getD_some, hk1, Nat.zero_add, tileFormatToString, hk2]

/-- **C47.** A format number beyond the table panics (it can come from any `uint8`). -/
theorem C47_bad_format_panics (f : TileFormat) : tileFormatToString f = none ↔ 10 < f := by
  unfold tileFormatToString
  rw [List.getElem?_eq_none_iff]
  exact Nat.succ_le_iff

/-- **C47.** Layer types round trip, and any other text means base layer. -/
theorem C47_layer_type (t : Int) (ht : t = 0 ∨ t = 1) :
    stringToLayerType (layerTypeToString t) = t := by
  rcases ht with rfl | rfl <;> decide +kernel

/-- **C47 (false).** The stored name is not the one `String()` gives: the table and the constants
are in different orders; the two names agree exactly for unknown, lerc, tiff, terrain and tif. -/
theorem C47_names_disagree (f : TileFormat) (hf : f ≤ 10) :
    tileFormatToString f = some (formatName f) ↔
      f = UNKNOWN ∨ f = LERC ∨ f = TIFF ∨ f = TERRAIN ∨ f = TIF := by
  interval_cases f <;> decide +kernel

/-- **C47 (false).** A PNG tileset is described as "jpg", a JPG one as "webp", a PBF one as "gzib". -/
theorem C47_wrong_names :
    tileFormatToString PNG = some "jpg".toList ∧ tileFormatToString JPG = some "webp".toList ∧
    tileFormatToString PBF = some "gzib".toList ∧ tileFormatToString WEBP = some "zlib".toList := by
  decide +kernel

/-- **C47 (false).** Conversely the standard names in metadata written by other tools are misread:
"pbf" as gzip, "png" as zlib, "jpg" as PNG, "webp" as JPG. -/
theorem C47_foreign_names_misread :
    stringToTileFormat "pbf".toList = GZIP ∧ stringToTileFormat "png".toList = ZLIB ∧
    stringToTileFormat "jpg".toList = PNG ∧ stringToTileFormat "webp".toList = JPG := by
  decide +kernel

end Verif.Mbtiles
