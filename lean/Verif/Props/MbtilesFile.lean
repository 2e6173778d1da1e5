import Verif.Model.MbtilesFile
import Verif.Props.Mbtiles
import Mathlib.Logic.Equiv.List

/-!
# C70, C71: UTF grids and the life of a tileset file; more of C47
-/
namespace Verif.Mbtiles
open Verif.Go

/-! ## C71: creating, opening, storing, stopping -/

/-- What a program (and its crashes) can do with a tileset file. -/
inductive Ev
  | create (fmt : TileFormat) (md : Option (List (String × List Char))) (stop : Nat) (mdio : List Bool)
  | reopen (i j : Nat) (io : Bool)
  | store (z x y : Nat) (d : Blob) (io : Bool)
  | update (es : List (String × List Char)) (io : List Bool)
  | stop  -- the process ends, at any time

/-- The file and the tileset object the program holds, if any. -/
structure Sess where
  file : File
  handle : Option DB

/-- A failed `CreateDB` or `NewDB` leaves the program with the object it had. -/
def Sess.step (order : List (TileFormat × List (List Nat))) (s : Sess) : Ev → Sess
  | .create fmt md stop mdio =>
    match createDB s.file fmt md stop mdio with
    | (f, some db) => ⟨f, some db⟩
    | (f, none) => ⟨f, s.handle⟩
  | .reopen i j io =>
    match newDB order s.file i j io with
    | some db => ⟨s.file, some db⟩
    | none => s
  | .store z x y d io => if s.handle.isSome then ⟨(storeFile s.file z x y d io).1, s.handle⟩ else s
  | .update es io => if s.handle.isSome then ⟨(updateFile s.file es io).1, s.handle⟩ else s
  | .stop => ⟨s.file, none⟩

/-- A history. -/
def Sess.run (order : List (TileFormat × List (List Nat))) (s : Sess) (evs : List Ev) : Sess := evs.foldl (Sess.step order) s

/-- The event stores a tile at these coordinates successfully, if the program holds a tileset. -/
def Ev.StoresAt (z x y : Nat) : Ev → Prop
  | .store z' x' y' _ io => z' = z ∧ x' = x ∧ y' = y ∧ io = true ∧ x' < 2 ^ 63 ∧ y' < 2 ^ 63
  | _ => False

theorem pickRow_nil {α : Type} (i : Nat) : pickRow ([] : List α) i = none := rfl

theorem pickRow_mem {α : Type} {l : List α} (h : l ≠ []) (i : Nat) : ∃ a ∈ l, pickRow l i = some a := by
  have hlt : i % l.length < l.length := Nat.mod_lt _ (List.length_pos_iff.mpr h)
  exact ⟨l[i % l.length], List.getElem_mem hlt, List.getElem?_eq_getElem hlt⟩

theorem newDB_empty (order : List (TileFormat × List (List Nat))) (f : File) (h : f.tiles = none ∨ f.tiles = some []) (i j : Nat) (io : Bool) :
    newDB order f i j io = none := by
  unfold newDB
  split
  · rcases h with h | h <;> rw [h]
    simp [pickRow_nil, newDBFormat]
  · rfl

theorem create_cases (f : File) (fmt : TileFormat) (md : Option (List (String × List Char))) (stop : Nat) (mdio : List Bool) :
    createDB f fmt md stop mdio = (f, none) ∨
    (f.tiles = none ∧ (createDB f fmt md stop mdio).1.tiles = some [] ∧
      ((createDB f fmt md stop mdio).2.isSome → (createDB f fmt md stop mdio).1.unique = true) ∧
      (createDB f fmt md stop mdio).1.gridNames = f.gridNames) := by
  unfold createDB
  by_cases h0 : stop = 0 ∨ f.tiles.isSome
  · left; rw [if_pos h0]
  · right
    rw [if_neg h0]
    have : f.tiles = none := by
      push Not at h0
      simpa using h0.2
    refine ⟨this, ?_⟩
    by_cases h1 : stop = 1 ∨ f.unique
    · simp only [if_pos h1]; simp
    · simp only [if_neg h1]
      by_cases h2 : stop = 2 ∨ f.mdata.isSome
      · simp only [if_pos h2]; simp
      · simp only [if_neg h2]
        by_cases h3 : stop = 3
        · simp only [if_pos h3]; simp
        · simp only [if_neg h3]
          cases md <;> simp

/-- What holds in every history that starts with a new file. -/
structure Inv (s : Sess) : Prop where
  live : s.handle.isSome → s.file.unique = true ∧ s.file.tiles.isSome
  lazy : s.file.unique = false → s.file.tiles = none ∨ s.file.tiles = some []
  nogrid : s.file.gridNames = []

theorem inv_step (order : List (TileFormat × List (List Nat))) (s : Sess) (h : Inv s) (e : Ev) : Inv (s.step order e) := by
  cases e with
  | create fmt md stop mdio =>
    simp only [Sess.step]
    have hc := create_cases s.file fmt md stop mdio
    generalize createDB s.file fmt md stop mdio = r at hc ⊢
    obtain ⟨f, o⟩ := r
    rcases hc with hc | ⟨h1, h2, h3, h4⟩
    · simp only [Prod.mk.injEq] at hc
      obtain ⟨rfl, rfl⟩ := hc
      exact h
    · have hn : s.handle = none := by
        cases hh : s.handle with
        | none => rfl
        | some d =>
          have := (h.live (by simp [hh])).2
          rw [h1] at this; cases this
      cases o with
      | none =>
        refine ⟨fun hl => ?_, fun _ => .inr h2, by rw [h4]; exact h.nogrid⟩
        simp [hn] at hl
      | some d => exact ⟨fun _ => ⟨h3 rfl, by simp only at h2; simp [h2]⟩, fun _ => .inr h2, by rw [h4]; exact h.nogrid⟩
  | reopen i j io =>
    simp only [Sess.step]
    cases hd : newDB order s.file i j io with
    | none => exact h
    | some d =>
      have hu : s.file.unique = true ∧ s.file.tiles.isSome := by
        have hne : ¬ (s.file.tiles = none ∨ s.file.tiles = some []) := fun hx => by
          rw [newDB_empty order _ hx] at hd; cases hd
        refine ⟨?_, ?_⟩
        · by_contra hx
          exact hne (h.lazy (by simpa using hx))
        · cases ht : s.file.tiles with
          | none => exact absurd (.inl ht) hne
          | some t => rfl
      exact ⟨fun _ => hu, h.lazy, h.nogrid⟩
  | store z x y d io =>
    simp only [Sess.step]
    by_cases hh : s.handle.isSome
    · simp only [if_pos hh]
      obtain ⟨hu, ht⟩ := h.live hh
      obtain ⟨ts, ht⟩ := Option.isSome_iff_exists.mp ht
      unfold storeFile
      rw [ht]
      simp only [hu, if_true]
      exact ⟨fun _ => ⟨rfl, rfl⟩, fun hx => (by cases hx), h.nogrid⟩
    · simp only [if_neg hh]; exact h
  | update es io =>
    simp only [Sess.step]
    by_cases hh : s.handle.isSome
    · simp only [if_pos hh]
      unfold updateFile
      cases s.file.mdata with
      | none => exact h
      | some m => exact ⟨h.live, h.lazy, h.nogrid⟩
    · simp only [if_neg hh]; exact h
  | stop => exact ⟨fun hx => by simp [Sess.step] at hx, h.lazy, h.nogrid⟩

theorem inv_run (order : List (TileFormat × List (List Nat))) (evs : List Ev) : ∀ s, Inv s → Inv (s.run order evs) := by
  induction evs with
  | nil => intro s h; exact h
  | cons e evs ih => intro s h; exact ih _ (inv_step order s h e)

/-- A new file, no tileset open. -/
def Sess.new : Sess := ⟨{}, none⟩

theorem inv_new : Inv .new := ⟨by simp [Sess.new], fun _ => .inl rfl, rfl⟩

theorem read_step (order : List (TileFormat × List (List Nat))) (s : Sess) (h : Inv s) (e : Ev) (z x y : Nat) (he : ¬ e.StoresAt z x y)
    (hx : x < 2 ^ 63) (hy : y < 2 ^ 63) (ht : s.file.tiles.isSome) :
    (s.step order e).file.tiles.isSome ∧ readFile (s.step order e).file z x y true = readFile s.file z x y true := by
  obtain ⟨ts, hts⟩ := Option.isSome_iff_exists.mp ht
  cases e with
  | create fmt md stop mdio =>
    simp only [Sess.step]
    have hc := create_cases s.file fmt md stop mdio
    generalize createDB s.file fmt md stop mdio = r at hc ⊢
    obtain ⟨f, o⟩ := r
    rcases hc with hc | ⟨h1, _⟩
    · simp only [Prod.mk.injEq] at hc
      obtain ⟨rfl, rfl⟩ := hc
      exact ⟨ht, rfl⟩
    · rw [hts] at h1; cases h1
  | reopen i j io =>
    simp only [Sess.step]
    cases hd : newDB order s.file i j io <;> exact ⟨ht, rfl⟩
  | store z' x' y' d io =>
    simp only [Sess.step]
    by_cases hh : s.handle.isSome
    · simp only [if_pos hh]
      have hu := (h.live hh).1
      unfold storeFile
      rw [hts]
      simp only [hu, if_true]
      refine ⟨rfl, ?_⟩
      unfold readFile
      rw [hts]
      simp only
      have hs : (sqlUint x && sqlUint y && true) = true := by
        norm_num at hx hy; simp [sqlUint, hx, hy]
      simp only [readTile, hs, if_true]
      rw [find_storeTile, if_neg (show ¬ StoresOK z x y (.store z' x' y' d io) from he)]
    · simp only [if_neg hh]; exact ⟨ht, trivial⟩
  | update es io =>
    simp only [Sess.step]
    by_cases hh : s.handle.isSome
    · simp only [if_pos hh]
      unfold updateFile
      cases s.file.mdata <;> exact ⟨ht, rfl⟩
    · simp only [if_neg hh]; exact ⟨ht, trivial⟩
  | stop => exact ⟨ht, rfl⟩

theorem read_run (order : List (TileFormat × List (List Nat))) (z x y : Nat) (hx : x < 2 ^ 63) (hy : y < 2 ^ 63) (evs : List Ev) :
    ∀ s, Inv s → s.file.tiles.isSome → (∀ e ∈ evs, ¬ e.StoresAt z x y) →
      (s.run order evs).file.tiles.isSome ∧ readFile (s.run order evs).file z x y true = readFile s.file z x y true := by
  induction evs with
  | nil => intro s h ht _; exact ⟨ht, rfl⟩
  | cons e evs ih =>
    intro s h ht he
    obtain ⟨h1, h2⟩ := read_step order s h e z x y (he e (by simp)) hx hy ht
    obtain ⟨h3, h4⟩ := ih _ (inv_step order s h e) h1 (fun e' he' => he e' (by simp [he']))
    exact ⟨h3, by rw [← h2]; exact h4⟩

theorem run_append' (order : List (TileFormat × List (List Nat))) (s : Sess) (a b : List Ev) :
    s.run order (a ++ b) = (s.run order a).run order b := by
  unfold Sess.run
  rw [List.foldl_append]

/-- **C71.** In every history of a new file - attempts to create and open it, stores, metadata updates, failures of any statement and
crashes at any point - a tile stored successfully stays readable with exactly its data until the next successful store at its
coordinates. -/
theorem C71_read_last_store (order : List (TileFormat × List (List Nat))) (pre post : List Ev) (z x y : Nat) (d : Blob)
    (hx : x < 2 ^ 63) (hy : y < 2 ^ 63) (hlive : (Sess.new.run order pre).handle.isSome)
    (hpost : ∀ e ∈ post, ¬ e.StoresAt z x y) :
    readFile (Sess.new.run order (pre ++ .store z x y d true :: post)).file z x y true = .ok d := by
  rw [run_append']
  have hi := inv_run order pre _ inv_new
  generalize Sess.new.run order pre = s at hi hlive
  obtain ⟨hu, ht⟩ := hi.live hlive
  obtain ⟨ts, hts⟩ := Option.isSome_iff_exists.mp ht
  have hs : (sqlUint x && sqlUint y && true) = true := by
    norm_num at hx hy; simp [sqlUint, hx, hy]
  have hstep : s.step order (.store z x y d true) = ⟨{ s.file with tiles := some (storeTile ts z x y d true).1 }, s.handle⟩ := by
    simp only [Sess.step]
    rw [if_pos hlive]
    unfold storeFile
    rw [hts]
    simp only [hu, if_true]
  show readFile ((s.step order (.store z x y d true)).run order post).file z x y true = .ok d
  rw [(read_run order z x y hx hy post _ (inv_step order s hi _) (by rw [hstep]; rfl) hpost).2, hstep]
  simp only [readFile, readTile, hs, if_true]
  rw [find_storeTile, if_pos ⟨rfl, rfl, rfl, rfl, hx, hy⟩]

/-- **C71.** A tile no event stored reads as absent. -/
theorem C71_read_absent (order : List (TileFormat × List (List Nat))) (evs : List Ev) (z x y : Nat) (hx : x < 2 ^ 63) (hy : y < 2 ^ 63)
    (hlive : (Sess.new.run order evs).handle.isSome) (h : ∀ e ∈ evs, ¬ e.StoresAt z x y) :
    readFile (Sess.new.run order evs).file z x y true = .ok none := by
  have key : ∀ (evs : List Ev) (s : Sess), Inv s → (s.file.tiles = none ∨ readFile s.file z x y true = .ok none) →
      (∀ e ∈ evs, ¬ e.StoresAt z x y) →
      ((s.run order evs).file.tiles = none ∨ readFile (s.run order evs).file z x y true = .ok none) := by
    intro evs
    induction evs with
    | nil => intro s _ h _; exact h
    | cons e evs ih =>
      intro s hi h he
      refine ih _ (inv_step order s hi e) ?_ (fun e' he' => he e' (by simp [he']))
      by_cases ht : s.file.tiles.isSome
      · right
        rw [(read_step order s hi e z x y (he e (by simp)) hx hy ht).2]
        rcases h with h | h
        · rw [h] at ht; cases ht
        · exact h
      · have hn : s.file.tiles = none := by simpa using ht
        have hh : s.handle = none := by
          cases hh : s.handle with
          | none => rfl
          | some d => exact absurd (hi.live (by simp [hh])).2 ht
        cases e with
        | create fmt md stop mdio =>
          simp only [Sess.step]
          have hc := create_cases s.file fmt md stop mdio
          generalize createDB s.file fmt md stop mdio = r at hc ⊢
          obtain ⟨f, o⟩ := r
          rcases hc with hc | ⟨h1, h2, _⟩
          · simp only [Prod.mk.injEq] at hc
            obtain ⟨rfl, rfl⟩ := hc
            exact .inl hn
          · right
            have hs : (sqlUint x && sqlUint y && true) = true := by
              norm_num at hx hy; simp [sqlUint, hx, hy]
            simp only at h2
            cases o <;> simp [readFile, h2, readTile, hs]
        | reopen i j io =>
          left
          simp only [Sess.step]
          rw [newDB_empty order _ (.inl hn)]
          exact hn
        | store => left; simp [Sess.step, hh, hn]
        | update => left; simp [Sess.step, hh, hn]
        | stop => left; exact hn
  rcases key evs .new inv_new (.inl rfl) h with hk | hk
  · have := ((inv_run order evs _ inv_new).live hlive).2
    rw [hk] at this; cases this
  · exact hk

/-- **C71.** A file that has a tile table - made by an earlier `CreateDB`, complete or not - is never created again: every later
`CreateDB` fails and changes nothing. -/
theorem C71_create_once (order : List (TileFormat × List (List Nat))) (s : Sess) (h : s.file.tiles.isSome) (evs : List Ev) (fmt : TileFormat)
    (md : Option (List (String × List Char))) (stop : Nat) (mdio : List Bool) :
    createDB (s.run order evs).file fmt md stop mdio = ((s.run order evs).file, none) := by
  have key : ∀ (evs : List Ev) (s : Sess), s.file.tiles.isSome → (s.run order evs).file.tiles.isSome := by
    intro evs
    induction evs with
    | nil => intro s h; exact h
    | cons e evs ih =>
      intro s h
      refine ih _ ?_
      cases e with
      | create fmt md stop mdio =>
        simp only [Sess.step]
        have hc := create_cases s.file fmt md stop mdio
        generalize createDB s.file fmt md stop mdio = r at hc ⊢
        obtain ⟨f, o⟩ := r
        rcases hc with hc | ⟨h1, _⟩
        · simp only [Prod.mk.injEq] at hc
          obtain ⟨rfl, rfl⟩ := hc
          exact h
        · rw [h1] at h; cases h
      | reopen i j io =>
        simp only [Sess.step]
        cases newDB order s.file i j io <;> exact h
      | store z x y d io =>
        simp only [Sess.step]
        split
        · unfold storeFile
          split
          · exact h
          · split
            · rfl
            · split
              · rfl
              · exact h
        · exact h
      | update es io =>
        simp only [Sess.step]
        split
        · unfold updateFile
          split <;> exact h
        · exact h
      | stop => exact h
  have hk := key evs s h
  unfold createDB
  rw [if_pos (.inr hk)]

/-- **C71.** A file without a stored tile cannot be used again by another program: neither `CreateDB` nor `NewDB` ever returns a tileset
for it, and it stays as it is. -/
theorem C71_unused_file_is_dead (order : List (TileFormat × List (List Nat))) (f : File) (h : f.tiles = some []) (evs : List Ev) :
    Sess.run order ⟨f, none⟩ evs = ⟨f, none⟩ := by
  induction evs with
  | nil => rfl
  | cons e evs ih =>
    have : Sess.step order ⟨f, none⟩ e = ⟨f, none⟩ := by
      cases e with
      | create fmt md stop mdio =>
        simp only [Sess.step, createDB]
        rw [if_pos (.inr (by simp [h]))]
      | reopen i j io =>
        simp only [Sess.step]
        rw [newDB_empty order _ (.inr h)]
      | store => rfl
      | update => rfl
      | stop => rfl
    show Sess.run order (Sess.step order ⟨f, none⟩ e) evs = _
    rw [this]
    exact ih

/-- **C71.** So a `CreateDB` that fails or is interrupted after its first statement ruins the file for good, and so does a program that
creates a tileset and stores no tile. -/
theorem C71_interrupted_creation_ruins_file (order : List (TileFormat × List (List Nat))) (fmt : TileFormat)
    (md : Option (List (String × List Char))) (stop : Nat) (mdio : List Bool) (h1 : 1 ≤ stop) (evs : List Ev) :
    (stop ≤ 3 → (createDB {} fmt md stop mdio).2 = none) ∧
    Sess.run order ⟨(createDB {} fmt md stop mdio).1, none⟩ evs = ⟨(createDB {} fmt md stop mdio).1, none⟩ := by
  refine ⟨fun h3 => ?_, C71_unused_file_is_dead order _ ?_ evs⟩
  · have : stop = 1 ∨ stop = 2 ∨ stop = 3 := by omega
    rcases this with rfl | rfl | rfl <;> rfl
  · have h0 : stop ≠ 0 := by omega
    by_cases h1 : stop = 1
    · subst h1; rfl
    by_cases h2 : stop = 2
    · subst h2; rfl
    by_cases h3 : stop = 3
    · subst h3; rfl
    cases md <;> simp [createDB, h0, h1, h2, h3]

/-- **C71.** On a file of another program that lacks a table: without `tiles` nothing opens, stores or reads, without `metadata` no update
succeeds; every one of these calls reports it, and none of them changes the file. -/
theorem C71_missing_table (order : List (TileFormat × List (List Nat))) (f : File) (z x y i j : Nat) (d : Blob) (io : Bool)
    (es : List (String × List Char)) (ios : List Bool) :
    (f.tiles = none → newDB order f i j io = none ∧ storeFile f z x y d io = (f, false) ∧ readFile f z x y io = .err) ∧
    (f.mdata = none → updateFile f es ios = (f, false)) := by
  refine ⟨fun h => ⟨?_, ?_, ?_⟩, fun h => ?_⟩
  · unfold newDB; rw [h]; cases io <;> rfl
  · unfold storeFile; rw [h]
  · unfold readFile; rw [h]
  · unfold updateFile; rw [h]

/-- **C71.** A `CreateDB` that is not disturbed returns a tileset of the requested format with exactly the given metadata; if the metadata
cannot be written, it returns the tileset all the same, without metadata. -/
theorem C71_create (fmt : TileFormat) (es : List (String × List Char)) (stop : Nat) (h : 4 ≤ stop) :
    (∃ f, createDB {} fmt (some es) stop [] = (f, some ⟨fmt, false, UNKNOWN⟩) ∧ f.tiles = some [] ∧ f.mdata = some es ∧ f.unique = true) ∧
    (∃ f, createDB {} fmt none stop [] = (f, some ⟨fmt, false, UNKNOWN⟩) ∧ f.tiles = some [] ∧ f.mdata = some []) ∧
    ∃ f, createDB {} fmt (some es) stop [true, false] = (f, some ⟨fmt, false, UNKNOWN⟩) ∧ f.mdata = some [] := by
  have h0 : stop ≠ 0 := by omega
  have h1 : stop ≠ 1 := by omega
  have h2 : stop ≠ 2 := by omega
  have h3 : stop ≠ 3 := by omega
  have hins : ∀ (l : List (String × List Char)) (c p : List (String × List Char)),
      runInserts ⟨c, some p⟩ l [] = (⟨c, some (p ++ l)⟩, true, []) := by
    intro l
    induction l with
    | nil => intro c p; simp [runInserts]
    | cons e l ih =>
      intro c p
      simp only [runInserts, List.headD_nil, if_true, Store.exec, List.tail_nil]
      rw [ih]; simp
  have hu : updateMetadata ⟨[], none⟩ es [] = (⟨es, none⟩, true) := by
    simp only [updateMetadata, List.headD_nil, if_true, List.tail_nil, Store.exec]
    rw [hins]
    simp
  refine ⟨⟨{ tiles := some [], unique := true, mdata := some es }, ?_, rfl, rfl, rfl⟩,
    ⟨{ tiles := some [], unique := true, mdata := some [] }, ?_, rfl, rfl⟩,
    ⟨{ tiles := some [], unique := true, mdata := some [] }, ?_, rfl⟩⟩
  · simp [createDB, h0, h1, h2, h3, hu, Store.afterCrash]
  · simp [createDB, h0, h1, h2, h3]
  · simp [createDB, h0, h1, h2, h3, updateMetadata, Store.exec, Store.afterCrash]

/-- **C71.** The metadata given to `CreateDB` is what `GetMetadata` returns, as in C44. -/
theorem C71_create_metadata {LD : Type} (rnd : ℚ → ℚ) (cd : Codec LD) (m : Metadata LD) (hm : Storable cd m) (hz : m.maxZoom ≠ 0)
    (fmt : TileFormat) (stop : Nat) (h : 4 ≤ stop) (entries rows : List (String × List Char)) (tiles : List TileRow)
    (hmap : ∃ es, toMap cd m = some es ∧ entries.Perm es)
    (hrows : ∃ l, (createDB {} fmt (some entries) stop []).1.mdata = some l ∧ rows.Perm l) :
    ∃ m', getMetadata rnd cd rows tiles = .ok m' ∧ m'.name = m.name ∧ m'.description = m.description ∧ m'.minZoom = m.minZoom ∧
      m'.maxZoom = m.maxZoom ∧ m'.type = m.type ∧ m'.format = m.format ∧ m'.bounds = m.bounds.map (fun q => rnd (roundDec 8 q)) ∧
      m'.center = m.center.map (fun q => rnd (roundDec 8 q)) := by
  obtain ⟨l, hl, hp⟩ := hrows
  obtain ⟨⟨f, c1, c2, c3, _⟩, _⟩ := C71_create fmt entries stop h
  rw [c1] at hl
  simp only [c3, Option.some.injEq] at hl
  subst hl
  have hins : ∀ (l : List (String × List Char)) (c p : List (String × List Char)),
      runInserts ⟨c, some p⟩ l [] = (⟨c, some (p ++ l)⟩, true, []) := by
    intro l
    induction l with
    | nil => intro c p; simp [runInserts]
    | cons e l ih =>
      intro c p
      simp only [runInserts, List.headD_nil, if_true, Store.exec, List.tail_nil]
      rw [ih]; simp
  have hu : updateMetadata ⟨[], none⟩ entries [] = (⟨entries, none⟩, true) := by
    simp only [updateMetadata, List.headD_nil, if_true, List.tail_nil, Store.exec]
    rw [hins]
    simp
  obtain ⟨_, m', g1, g2, g3, g4, g5, g6, g7, _, _, _, _, _, g8, g9, _⟩ :=
    C44_roundtrip rnd cd m hm hz ⟨[], none⟩ rfl entries rows tiles hmap (by rw [hu]; exact hp)
  exact ⟨m', g1, g2, g3, g4, g5, g6, g7, g8, g9⟩

/-- **C71.** If every tile ever stored has the same recognisable kind `F` and some tile can be read, another program that opens the file gets
a tileset of format `F` (pbf for gzip), whichever tile the database looks at and whatever format `CreateDB` was given. -/
theorem C71_reopen (order : List (TileFormat × List (List Nat))) (evs : List Ev) (F : TileFormat) (i j : Nat)
    (hF : ∀ e ∈ evs, ∀ z x y d io, e = .store z x y d io → detect order (d.getD []) = some F)
    (hone : ∃ z x y b, readFile (Sess.new.run order evs).file z x y true = .ok (some b)) :
    newDB order (Sess.new.run order evs).file i j true = some ⟨if F = GZIP then PBF else F, false, UNKNOWN⟩ := by
  have key : ∀ (evs : List Ev) (s : Sess), Inv s → (∀ ts, s.file.tiles = some ts → ∀ r ∈ ts, detect order (r.data.getD []) = some F) →
      (∀ e ∈ evs, ∀ z x y d io, e = .store z x y d io → detect order (d.getD []) = some F) →
      ∀ ts, (s.run order evs).file.tiles = some ts → ∀ r ∈ ts, detect order (r.data.getD []) = some F := by
    intro evs
    induction evs with
    | nil => intro s _ h _; exact h
    | cons e evs ih =>
      intro s hi h he
      refine ih _ (inv_step order s hi e) ?_ (fun e' he' => he e' (by simp [he']))
      cases e with
      | create fmt md stop mdio =>
        simp only [Sess.step]
        have hc := create_cases s.file fmt md stop mdio
        generalize createDB s.file fmt md stop mdio = r at hc ⊢
        obtain ⟨f, o⟩ := r
        rcases hc with hc | ⟨h1, h2, _⟩
        · simp only [Prod.mk.injEq] at hc
          obtain ⟨rfl, rfl⟩ := hc
          exact h
        · simp only at h2
          cases o <;>
          · simp only [h2, Option.some.injEq]
            rintro ts rfl r hr
            cases hr
      | reopen i j io =>
        simp only [Sess.step]
        cases newDB order s.file i j io <;> exact h
      | store z x y d io =>
        have hd := he _ (by simp) z x y d io rfl
        simp only [Sess.step]
        by_cases hh : s.handle.isSome
        · simp only [if_pos hh]
          obtain ⟨hu, ht⟩ := hi.live hh
          obtain ⟨ts0, ht⟩ := Option.isSome_iff_exists.mp ht
          unfold storeFile
          rw [ht]
          simp only [hu, if_true, Option.some.injEq]
          rintro ts rfl r hr
          unfold storeTile at hr
          split at hr
          · rcases List.mem_append.mp hr with hr | hr
            · exact h _ ht r (List.mem_of_mem_filter hr)
            · simp only [List.mem_singleton] at hr
              subst hr; exact hd
          · exact h _ ht r hr
        · simp only [if_neg hh]; exact h
      | update es io =>
        simp only [Sess.step]
        split
        · unfold updateFile
          cases s.file.mdata <;> exact h
        · exact h
      | stop => exact h
  have hk := key evs .new inv_new (by intro ts h; cases h) hF
  have hg := (inv_run order evs _ inv_new).nogrid
  generalize Sess.new.run order evs = s at hk hg hone
  obtain ⟨z, x, y, b, hr⟩ := hone
  unfold readFile at hr
  cases ht : s.file.tiles with
  | none => rw [ht] at hr; cases hr
  | some ts =>
    rw [ht] at hr
    have hne : ts ≠ [] := by
      rintro rfl
      simp only [readTile, List.find?_nil] at hr
      split at hr <;> cases hr
    obtain ⟨r, hr1, hr2⟩ := pickRow_mem hne i
    unfold newDB
    simp only [if_true, ht, hr2, Option.map_some, newDBFormat, hk ts ht r hr1, hg, List.filter_nil, List.length_nil]
    rfl

/-- Witness for `C71_read_last_store` and `C71_reopen`: a tileset is created after a failed attempt, a PNG stored, the program stops, another
opens the file and overwrites the tile. -/
example :
    let png : Blob := some [0x89, 0x50, 0x4E, 0x47, 0x0D, 0x0A, 0x1A, 0x0A, 1]
    let evs : List Ev := [.create PNG none 0 [], .create PNG none 4 [], .store 3 1 2 png true, .stop, .reopen 0 0 true]
    (Sess.new.run patterns evs).handle = some ⟨PNG, false, UNKNOWN⟩ ∧
    readFile (Sess.new.run patterns (evs ++ [.store 3 1 2 (some [7]) true, .stop])).file 3 1 2 true = .ok (some [7]) := by
  decide +kernel

/-- **C71 (limit).** The format given to `CreateDB` is not kept: a tileset created as PNG whose first tile is a JPEG opens as JPG, and one whose
tiles are plain protocol buffers does not open at all. -/
theorem C71_format_not_kept :
    (Sess.new.run patterns [.create PNG none 4 [], .store 0 0 0 (some [0xFF, 0xD8, 0xFF, 0xE0]) true, .stop, .reopen 0 0 true]).handle =
      some ⟨JPG, false, UNKNOWN⟩ ∧
    (Sess.new.run patterns [.create PBF none 4 [], .store 0 0 0 (some [0x1a, 0x02, 0x78, 0x02]) true, .stop, .reopen 0 0 true]).handle =
      none := by decide +kernel

/-- **C71 (limit).** In a file of another program without a unique index on the coordinates, overwriting a tile only adds a second row:
`StoreTile` succeeds and `ReadTile` goes on returning the old data. -/
theorem C71_foreign_file_overwrite_lost (f : File) (ts : List TileRow) (ht : f.tiles = some ts) (hu : f.unique = false) (z x y : Nat)
    (hx : x < 2 ^ 63) (hy : y < 2 ^ 63) (old new : Blob) (hr : ⟨z, x, y, old⟩ ∈ ts) :
    (storeFile f z x y new true).2 = true ∧ readFile (storeFile f z x y new true).1 z x y true = readFile f z x y true ∧
    ∃ ts', (storeFile f z x y new true).1.tiles = some ts' ∧ ⟨z, x, y, old⟩ ∈ ts' ∧ ⟨z, x, y, new⟩ ∈ ts' := by
  have hs : (sqlUint x && sqlUint y && true) = true := by
    norm_num at hx hy; simp [sqlUint, hx, hy]
  have he : storeFile f z x y new true = ({ f with tiles := some (ts ++ [⟨z, x, y, new⟩]) }, true) := by
    unfold storeFile
    rw [ht]
    simp only [hu, hs, if_true, Bool.false_eq_true, if_false]
  rw [he]
  refine ⟨rfl, ?_, _, rfl, List.mem_append_left _ hr, by simp⟩
  unfold readFile
  rw [ht]
  simp only [readTile, hs, if_true, List.find?_append]
  cases hf : ts.find? (fun r => r.z == z && r.x == x && r.y == y) with
  | none =>
    have := List.find?_eq_none.mp hf _ hr
    simp at this
  | some r => rfl

/-! ## C70: UTF grids -/

/-- encoding/json reads back the members it wrote. -/
def JCodec.Law {J : Type} (jc : JCodec J) : Prop :=
  ∀ m : List (String × J), ∃ m', jc.first (jc.encode m) = some (some m') ∧ jc.whole (jc.encode m) = some (some m') ∧
    ∀ k, m'.lookup k = m.lookup k

/-- Decompressing what was compressed gives it back. -/
def Comp.Law (cp : Comp) : Prop := ∀ zl s, cp.unzip zl (cp.zip zl s) = some s

theorem lookup_filter_ne {J : Type} (m : List (String × J)) (k k' : String) (h : k' ≠ k) :
    (m.filter (fun p => p.1 ≠ k)).lookup k' = m.lookup k' := by
  induction m with
  | nil => rfl
  | cons p m ih =>
    obtain ⟨a, v⟩ := p
    by_cases ha : a = k
    · subst ha
      have : (k' == a) = false := by simpa using h
      simp only [ne_eq, not_true_eq_false, decide_false, Bool.false_eq_true, not_false_eq_true, List.filter_cons_of_neg,
        List.lookup_cons, this]
      exact ih
    · rw [List.filter_cons_of_pos (by simpa using ha), List.lookup_cons, List.lookup_cons]
      rw [ih]

theorem lookup_filter_self {J : Type} (m : List (String × J)) (k : String) : (m.filter (fun p => p.1 ≠ k)).lookup k = none := by
  induction m with
  | nil => rfl
  | cons p m ih =>
    obtain ⟨a, v⟩ := p
    by_cases ha : a = k
    · subst ha
      rw [List.filter_cons_of_neg (by simp)]; exact ih
    · rw [List.filter_cons_of_pos (by simpa using ha), List.lookup_cons]
      have : (k == a) = false := by simpa using fun h : k = a => ha h.symm
      rw [this]; exact ih

theorem lookup_append {J : Type} (a b : List (String × J)) (k : String) : (a ++ b).lookup k = (a.lookup k).or (b.lookup k) := by
  induction a with
  | nil => rfl
  | cons p a ih =>
    obtain ⟨x, v⟩ := p
    rw [List.cons_append, List.lookup_cons, List.lookup_cons]
    by_cases h : k = x
    · subst h; simp
    · have : (k == x) = false := by simpa using h
      rw [this]; exact ih

theorem lookup_setKey {J : Type} (m : List (String × J)) (k k' : String) (v : J) :
    (setKey m k v).lookup k' = if k' = k then some v else m.lookup k' := by
  unfold setKey
  rw [lookup_append]
  by_cases h : k' = k
  · subst h
    rw [lookup_filter_self, if_pos rfl]
    simp [List.lookup]
  · rw [lookup_filter_ne m k k' h, if_neg h]
    have : (k' == k) = false := by simpa using h
    simp [List.lookup, this]

/-- The rows of the tile. -/
def File.keyRows (f : File) (z x y : Nat) : List KeyRow := f.keys.filter fun r => r.z == z && r.x == x && r.y == y

theorem keyData_spec {J : Type} (jc : JCodec J) : ∀ (rows : List KeyRow) (m : List (String × J)), (∀ r ∈ rows, r.name ≠ none) →
    ∃ kd, keyData jc rows m = some kd ∧ (rows ≠ [] ∨ m ≠ [] → kd ≠ []) ∧ (rows = [] → kd = m) ∧
      ∀ k, kd.lookup k = ((rows.reverse.find? (fun r => r.name = some k)).map (fun r => keyValue jc r.json)).or (m.lookup k)
  | [], m, _ => ⟨m, rfl, by simp, by simp, by simp⟩
  | r :: rows, m, h => by
    cases hn : r.name with
    | none => exact absurd hn (h r (by simp))
    | some a =>
      obtain ⟨kd, h1, h2, _, h3⟩ := keyData_spec jc rows (setKey m a (keyValue jc r.json)) (fun r' hr' => h r' (by simp [hr']))
      refine ⟨kd, by simp only [keyData, hn, h1], fun _ => h2 (.inr (by simp [setKey])), by simp, fun k => ?_⟩
      rw [h3, lookup_setKey, List.reverse_cons, List.find?_append]
      cases hf : rows.reverse.find? (fun r => decide (r.name = some k)) with
      | some r' => simp
      | none =>
        by_cases hk : k = a
        · subst hk; simp [hn]
        · have : ¬ r.name = some k := by rw [hn]; simpa using fun h => hk h.symm
          simp [hk, this]

theorem keyData_none {J : Type} (jc : JCodec J) : ∀ (rows : List KeyRow) (m : List (String × J)), (∃ r ∈ rows, r.name = none) →
    keyData jc rows m = none
  | [], _, h => by simp at h
  | r :: rows, m, h => by
    cases hn : r.name with
    | none => simp only [keyData, hn]
    | some a =>
      simp only [keyData, hn]
      refine keyData_none jc rows _ ?_
      obtain ⟨r', hr', hn'⟩ := h
      rcases List.mem_cons.mp hr' with rfl | hr'
      · rw [hn] at hn'; cases hn'
      · exact ⟨r', hr', hn'⟩

variable {J : Type} (jc : JCodec J) (cp : Comp) (db : DB) (f : File) (z x y : Nat) (data : Blob)

/-- **C70.** A tileset without UTF grids gives an error and leaves the buffer alone; a tile without a grid gives nil. -/
theorem C70_absent (hx : x < 2 ^ 63) (hy : y < 2 ^ 63) :
    (db.hasGrid = false → ∀ io, readGrid jc cp db f z x y io data = (.err, data)) ∧
    (db.hasGrid = true → (∀ g ∈ f.grids, ¬ (g.z = z ∧ g.x = x ∧ g.y = y)) → readGrid jc cp db f z x y true data = (.ok, none)) := by
  have hs : (sqlUint x && sqlUint y && true) = true := by
    norm_num at hx hy; simp [sqlUint, hx, hy]
  refine ⟨fun h io => by simp [readGrid, h], fun h hg => ?_⟩
  unfold readGrid
  rw [h, hs]
  have : f.grids.find? (fun r => r.z == z && r.x == x && r.y == y) = none := by
    rw [List.find?_eq_none]
    intro g hgm
    have := hg g hgm
    simp only [Bool.and_eq_true, beq_iff_eq]
    tauto
  simp only [this]
  rfl

/-- **C70.** A grid without key rows is returned as stored. -/
theorem C70_no_keys (hx : x < 2 ^ 63) (hy : y < 2 ^ 63) (hg : db.hasGrid = true) (g : GridRow)
    (hf : f.grids.find? (fun r => r.z == z && r.x == x && r.y == y) = some g) (hk : f.keyRows z x y = []) :
    readGrid jc cp db f z x y true data = (.ok, g.grid) := by
  have hs : (sqlUint x && sqlUint y && true) = true := by
    norm_num at hx hy; simp [sqlUint, hx, hy]
  unfold readGrid
  unfold File.keyRows at hk
  rw [hg, hs, hf, hk]
  rfl

/-- **C70.** A grid with key rows: if it is compressed as the tileset's grids are and contains a JSON object, the result is compressed the
same way and contains an object with the same members except `data`, which maps each key name to the JSON of its (last) row: objects
as they are, null as null, anything else as an empty object. -/
theorem C70_merge (hj : jc.Law) (hc : cp.Law) (hx : x < 2 ^ 63) (hy : y < 2 ^ 63) (hg : db.hasGrid = true) (g : GridRow)
    (hf : f.grids.find? (fun r => r.z == z && r.x == x && r.y == y) = some g)
    (hk : f.keyRows z x y ≠ []) (hn : ∀ r ∈ f.keyRows z x y, r.name ≠ none)
    (text : List Nat) (ht : cp.unzip (db.comp == ZLIB) (g.grid.getD []) = some text)
    (m : List (String × J)) (hm : jc.first text = some (some m)) :
    ∃ b text' m' kd, readGrid jc cp db f z x y true data = (.ok, some b) ∧ cp.unzip (db.comp == ZLIB) b = some text' ∧
      jc.first text' = some (some m') ∧ jc.whole text' = some (some m') ∧ (∀ k, k ≠ "data" → m'.lookup k = m.lookup k) ∧ m'.lookup "data" = some (jc.obj kd) ∧
      ∀ k, kd.lookup k = ((f.keyRows z x y).reverse.find? (fun r => r.name = some k)).map
        (fun r => (jc.whole (r.json.getD [])).elim (jc.obj []) fun o => o.elim jc.nul jc.obj) := by
  have hkv : (fun r : KeyRow => keyValue jc r.json) =
      fun r => (jc.whole (r.json.getD [])).elim (jc.obj []) fun o => o.elim jc.nul jc.obj := by
    funext r
    unfold keyValue
    rcases jc.whole (r.json.getD []) with _ | _ | _ <;> rfl
  have hs : (sqlUint x && sqlUint y && true) = true := by
    norm_num at hx hy; simp [sqlUint, hx, hy]
  obtain ⟨kd, h1, h2, _, h3⟩ := keyData_spec jc (f.keyRows z x y) [] hn
  have hlen : kd.length ≠ 0 := by
    simpa using h2 (.inl hk)
  obtain ⟨m', e1, e3, e2⟩ := hj (setKey m "data" (jc.obj kd))
  refine ⟨_, _, m', kd, ?_, hc _ _, e1, e3, fun k hk => ?_, ?_, fun k => by rw [h3]; simp [hkv]⟩
  · unfold readGrid
    unfold File.keyRows at h1
    rw [hg, hs, hf]
    simp only [Bool.not_true, Bool.false_eq_true, if_false, h1, if_neg hlen, ht, hm]
  · rw [e2, lookup_setKey, if_neg hk]
  · rw [e2, lookup_setKey, if_pos rfl]

/-- **C70.** With key rows, `ReadGrid` panics exactly when the grid is not a JSON object (not JSON, an array, null, or cut short), and fails when
it is not compressed as the tileset's grids or a key name is NULL; the buffer then holds the grid as stored. -/
theorem C70_failures (hx : x < 2 ^ 63) (hy : y < 2 ^ 63) (hg : db.hasGrid = true) (g : GridRow)
    (hf : f.grids.find? (fun r => r.z == z && r.x == x && r.y == y) = some g) (hk : f.keyRows z x y ≠ []) :
    ((∃ r ∈ f.keyRows z x y, r.name = none) → readGrid jc cp db f z x y true data = (.err, g.grid)) ∧
    ((∀ r ∈ f.keyRows z x y, r.name ≠ none) →
      (cp.unzip (db.comp == ZLIB) (g.grid.getD []) = none → readGrid jc cp db f z x y true data = (.err, g.grid)) ∧
      ∀ text, cp.unzip (db.comp == ZLIB) (g.grid.getD []) = some text →
        ((¬ ∃ m, jc.first text = some (some m)) ↔ readGrid jc cp db f z x y true data = (.panic, g.grid))) := by
  have hs : (sqlUint x && sqlUint y && true) = true := by
    norm_num at hx hy; simp [sqlUint, hx, hy]
  refine ⟨fun hn => ?_, fun hn => ?_⟩
  · have h1 := keyData_none jc (f.keyRows z x y) [] hn
    unfold File.keyRows at h1
    unfold readGrid
    rw [hg, hs, hf]
    simp only [Bool.not_true, Bool.false_eq_true, if_false, h1]
  · obtain ⟨kd, h1, h2, _, _⟩ := keyData_spec jc (f.keyRows z x y) [] hn
    have hlen : kd.length ≠ 0 := by simpa using h2 (.inl hk)
    unfold File.keyRows at h1
    refine ⟨fun hu => ?_, fun text hu => ?_⟩
    · unfold readGrid
      rw [hg, hs, hf]
      simp only [Bool.not_true, Bool.false_eq_true, if_false, h1, if_neg hlen, hu]
    · unfold readGrid
      rw [hg, hs, hf]
      simp only [Bool.not_true, Bool.false_eq_true, if_false, h1, if_neg hlen, hu]
      rcases hd : jc.first text with _ | _ | m <;> simp

/-- **C70.** `NewDB` finds UTF grids exactly when the tile sample is recognised, all five grid tables exist and there is a sample grid, whose kind
gives the compression; an unrecognised sample makes `NewDB` fail. -/
theorem C70_detect (order : List (TileFormat × List (List Nat))) (i j : Nat) (ts : List TileRow) (ht : f.tiles = some ts) (fmt : TileFormat)
    (hfm : newDBFormat order ((pickRow ts i).map fun r => r.data.getD []) = some fmt) (hd : f.gridNames.Nodup) :
    let five := ["grids", "grid_data", "grid_utfgrid", "keymap", "grid_key"]
    ((∃ t ∈ five, t ∉ f.gridNames) ∨ f.samples = [] → newDB order f i j true = some ⟨fmt, false, UNKNOWN⟩) ∧
    ((∀ t ∈ five, t ∈ f.gridNames) → ∀ s, pickRow f.samples j = some s →
      newDB order f i j true = (detect order (s.getD [])).map fun c => ⟨fmt, true, c⟩) := by
  intro five
  rw [show five = gridTables from rfl]
  clear five
  have hnd : (f.gridNames.filter (· ∈ gridTables)).Nodup := hd.filter _
  have hsub : (f.gridNames.filter (· ∈ gridTables)) ⊆ gridTables := by
    intro t h
    simpa using (List.mem_filter.mp h).2
  have h5 : gridTables.length = 5 := rfl
  have hgn : gridTables.Nodup := by decide
  refine ⟨fun h => ?_, fun h s hs => ?_⟩
  · unfold newDB
    simp only [if_true, ht, hfm]
    by_cases hl : (f.gridNames.filter (· ∈ gridTables)).length = 5
    · rw [if_pos hl]
      rcases h with ⟨t, h1, h2⟩ | h
      · exfalso
        have hp : (f.gridNames.filter (· ∈ gridTables)).Perm gridTables :=
          (List.subperm_of_subset hnd hsub).perm_of_length_le (by rw [hl, h5])
        exact h2 (List.mem_of_mem_filter (hp.mem_iff.mpr h1))
      · rw [h]; rfl
    · rw [if_neg hl]
  · have hp : (f.gridNames.filter (· ∈ gridTables)).Perm gridTables := by
      rw [List.perm_ext_iff_of_nodup hnd hgn]
      intro t
      refine ⟨fun h => hsub h, fun h' => List.mem_filter.mpr ⟨h t h', by simpa using h'⟩⟩
    unfold newDB
    simp only [if_true, ht, hfm]
    rw [if_pos (by rw [hp.length_eq, h5]), hs]
    simp only
    cases detect order (s.getD []) <;> rfl

/-! A codec and a compression that meet the laws, and a grid with two keys. -/

/-- JSON values as numbers, text as a list of zeros. -/
def demoCodec : JCodec ℕ where
  obj m := Encodable.encode (m.map fun p => (p.1.toList.map Char.toNat, p.2))
  nul := 0
  first t := some ((Encodable.decode (α := List (List ℕ × ℕ)) t.length).map fun m => m.map fun p => (String.ofList (p.1.map Char.ofNat), p.2))
  whole t := some ((Encodable.decode (α := List (List ℕ × ℕ)) t.length).map fun m => m.map fun p => (String.ofList (p.1.map Char.ofNat), p.2))
  encode m := List.replicate (Encodable.encode (m.map fun p => (p.1.toList.map Char.toNat, p.2))) 0

/-- Compression that only marks the data. -/
def demoComp : Comp where
  zip _ s := 0x1f :: s
  unzip _ s := match s with
    | 0x1f :: s => some s
    | _ => none

example : demoCodec.Law ∧ demoComp.Law := by
  refine ⟨fun m => ⟨m, ?_, ?_, fun _ => rfl⟩, fun _ _ => rfl⟩
  all_goals (
    have hc : ∀ l : List Char, (l.map Char.toNat).map Char.ofNat = l := fun l => by
      rw [List.map_map]
      conv_rhs => rw [← List.map_id l]
      exact List.map_congr_left fun c _ => Char.ofNat_toNat c
    have hs : ∀ m : List (String × ℕ), m.map (fun p => (String.ofList ((p.1.toList.map Char.toNat).map Char.ofNat), p.2)) = m := fun m => by
      conv_rhs => rw [← List.map_id m]
      refine List.map_congr_left fun p _ => ?_
      rw [hc, String.ofList_toList]; rfl
    simp only [demoCodec, List.length_replicate, Encodable.encodek, Option.map_some, List.map_map]
    simpa [Function.comp_def] using hs m)

example : ∃ (f : File) (g : GridRow) (m : List (String × ℕ)), f.grids.find? (fun r => r.z == 1 && r.x == 0 && r.y == 1) = some g ∧
    f.keyRows 1 0 1 ≠ [] ∧ (∀ r ∈ f.keyRows 1 0 1, r.name ≠ none) ∧
    demoComp.unzip false (g.grid.getD []) = some (demoCodec.encode m) ∧ m.length = 1 := by
  refine ⟨{ grids := [⟨1, 0, 1, some (0x1f :: demoCodec.encode [("grid", 5)])⟩], keys := [⟨1, 0, 1, some "a", none⟩, ⟨1, 0, 1, some "b", none⟩] },
    ⟨1, 0, 1, some (0x1f :: demoCodec.encode [("grid", 5)])⟩, [("grid", 5)], rfl, ?_, ?_, rfl, rfl⟩
  · simp [File.keyRows]
  · simp [File.keyRows]

/-! ## C47: content types and layer types -/

/-- **C47.** A format has a content type exactly when it has a name, and formats with the same content type are the same. -/
theorem C47_content_type (f g : ℕ) :
    (contentType f = "" ↔ formatName f = []) ∧ (contentType f ≠ "" → contentType f = contentType g → f = g) ∧
    (formatName f ≠ [] → formatName f = formatName g → f = g) := by
  have hf : f ≤ 10 ∨ 10 < f := by omega
  have hg : g ≤ 10 ∨ 10 < g := by omega
  have big : ∀ n : ℕ, 10 < n → contentType n = "" ∧ formatName n = [] := by
    intro n hn
    have : n ≠ PNG ∧ n ≠ JPG ∧ n ≠ PBF ∧ n ≠ WEBP ∧ n ≠ LERC ∧ n ≠ TIF ∧ n ≠ TIFF ∧ n ≠ TERRAIN := by
      unfold PNG JPG PBF WEBP LERC TIF TIFF TERRAIN; omega
    obtain ⟨a, b, c, d, e, h, i, j⟩ := this
    simp [contentType, formatName, a, b, c, d, e, h, i, j]
  have small : ∀ a : Fin 11, ∀ b : Fin 11, (contentType a = "" ↔ formatName a = []) ∧
      (contentType a ≠ "" → contentType a = contentType b → a = b) ∧ (formatName a ≠ [] → formatName a = formatName b → a = b) := by
    decide +kernel
  rcases hf with hf | hf
  · rcases hg with hg | hg
    · have := small ⟨f, by omega⟩ ⟨g, by omega⟩
      simpa [Fin.ext_iff] using this
    · obtain ⟨b1, b2⟩ := big g hg
      have := (small ⟨f, by omega⟩ 0).1
      rw [b1, b2]
      exact ⟨this, fun h1 h2 => absurd h2 h1, fun h1 h2 => absurd h2 h1⟩
  · obtain ⟨b1, b2⟩ := big f hf
    rw [b1, b2]
    simp

/-- **C47.** The JSON name of a layer type reads back as this type, other names are errors, and `String` of any other value panics. -/
theorem C47_layer_type_json (t : Int) (s : List Char) :
    (layerTypeString t = none ↔ t ≠ 0 ∧ t ≠ 1) ∧ (layerTypeOf s = some t ↔ layerTypeString t = some s) := by
  have e : layerTypeStrings = ["baselayer".toList, "overlay".toList] := rfl
  have ne : "baselayer".toList ≠ "overlay".toList := by decide
  have h2 : layerTypeOf s = some t ↔ (s = "baselayer".toList ∧ t = 0) ∨ (s = "overlay".toList ∧ t = 1) := by
    unfold layerTypeOf
    rw [e]
    generalize "baselayer".toList = A at ne ⊢
    generalize "overlay".toList = B at ne ⊢
    simp only [indexFrom]
    by_cases h0 : A = s
    · subst h0
      rw [if_pos rfl]
      simp only [Option.map_some, Option.some.injEq, Nat.cast_zero, true_and]
      refine ⟨fun h => .inl h.symm, ?_⟩
      rintro (h | ⟨h, _⟩)
      · exact h.symm
      · exact absurd h ne
    · rw [if_neg h0]
      by_cases h1 : B = s
      · subst h1
        rw [if_pos rfl]
        simp only [Option.map_some, Option.some.injEq, true_and]
        refine ⟨fun h => .inr h.symm, ?_⟩
        rintro (⟨h, _⟩ | h)
        · exact absurd h.symm ne
        · exact h.symm
      · rw [if_neg h1]
        simp only [Option.map_none, reduceCtorEq, false_iff]
        rintro (⟨h, _⟩ | ⟨h, _⟩)
        · exact h0 h.symm
        · exact h1 h.symm
  have h1 : t < 0 ∨ t = 0 ∨ t = 1 ∨ 2 ≤ t := by omega
  rcases h1 with h | rfl | rfl | h
  · have : layerTypeString t = none := by unfold layerTypeString; rw [if_pos h]
    rw [h2, this]
    refine ⟨by simp; omega, by simp; omega⟩
  · rw [h2]
    have : layerTypeString 0 = some "baselayer".toList := rfl
    rw [this]
    refine ⟨by simp, ?_⟩
    simp only [and_true, Option.some.injEq, zero_ne_one, and_false, or_false]
    exact eq_comm
  · rw [h2]
    have : layerTypeString 1 = some "overlay".toList := rfl
    rw [this]
    refine ⟨by simp, ?_⟩
    simp only [and_true, Option.some.injEq, one_ne_zero, and_false, false_or]
    exact eq_comm
  · have : layerTypeString t = none := by
      unfold layerTypeString
      rw [if_neg (by omega), e]
      simp only [List.getElem?_eq_none_iff, List.length_cons, List.length_nil]
      omega
    rw [h2, this]
    refine ⟨by simp; omega, by simp; omega⟩

/-- **C71.** `StoreTile` tells the truth: when it returns no error the tile is readable with exactly its data (in a file with the unique
index, as `CreateDB` makes it), and when it returns one the file is unchanged; without a tile table it always is an error. -/
theorem C71_store_result (f : File) (z x y : Nat) (d : Blob) (io : Bool) :
    ((storeFile f z x y d io).2 = true → f.tiles.isSome ∧ (f.unique = true → readFile (storeFile f z x y d io).1 z x y true = .ok d)) ∧
    ((storeFile f z x y d io).2 = false → (storeFile f z x y d io).1 = f) := by
  obtain ⟨tiles, uniq, mdata, gn, sm, gr, ks⟩ := f
  cases tiles with
  | none => exact ⟨fun h => by simp [storeFile] at h, fun _ => rfl⟩
  | some ts =>
    by_cases hs : (sqlUint x && sqlUint y && io) = true
    · have hxy : (sqlUint x && sqlUint y && true) = true := by
        simp only [Bool.and_eq_true] at hs ⊢; exact ⟨hs.1, trivial⟩
      cases uniq with
      | true =>
        refine ⟨fun _ => ⟨rfl, fun _ => ?_⟩, fun h => by simp [storeFile, storeTile, hs] at h⟩
        simp only [storeFile, if_true, storeTile, hs, readFile, readTile, hxy]
        rw [List.find?_append]
        have : (ts.filter (fun r => !(r.z == z && r.x == x && r.y == y))).find? (fun r => r.z == z && r.x == x && r.y == y) = none := by
          rw [List.find?_eq_none]
          intro r hr
          have := (List.mem_filter.mp hr).2
          simpa [-Bool.not_and] using this
        rw [this]
        simp
      | false =>
        exact ⟨fun _ => ⟨rfl, fun h => by simp at h⟩, fun h => by simp [storeFile, hs] at h⟩
    · have hs' : (sqlUint x && sqlUint y && io) = false := by simpa using hs
      cases uniq <;> refine ⟨fun h => ?_, fun _ => ?_⟩
      all_goals first
        | (simp [storeFile, storeTile, hs'] at h)
        | (simp [storeFile, storeTile, hs'])

/-- **C71.** `UpdateMetadata` on a file without metadata table is an error and changes nothing. -/
theorem C71_update_no_table (f : File) (h : f.mdata = none) (es : List (String × List Char)) (io : List Bool) :
    updateFile f es io = (f, false) := by
  unfold updateFile
  rw [h]

end Verif.Mbtiles
