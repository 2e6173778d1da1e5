import Verif.Model.Mbtiles
import Verif.Proof.GoFloat

/-! Lemmas for mbtiles: row order does not matter, text round trips. -/
namespace Verif.Mbtiles
open Verif.Go

inductive Key
  | name | description | attribution | version | format | minzoom | maxzoom | center | bounds
  | type | json | layout | origin | srs | boundsSrs | resFactor | tileSize
deriving DecidableEq

/-- The key a row name stands for. -/
def keyOf (s : String) : Option Key :=
  match s with
  | "name" => some .name
  | "description" => some .description
  | "attribution" => some .attribution
  | "version" => some .version
  | "format" => some .format
  | "minzoom" => some .minzoom
  | "maxzoom" => some .maxzoom
  | "center" => some .center
  | "bounds" => some .bounds
  | "type" => some .type
  | "json" => some .json
  | "directory_layout" => some .layout
  | "origin" => some .origin
  | "srs" => some .srs
  | "bounds_srs" => some .boundsSrs
  | "res_factor" => some .resFactor
  | "tile_size" => some .tileSize
  | _ => none

def keyName : Key → String
  | .name => "name"
  | .description => "description"
  | .attribution => "attribution"
  | .version => "version"
  | .format => "format"
  | .minzoom => "minzoom"
  | .maxzoom => "maxzoom"
  | .center => "center"
  | .bounds => "bounds"
  | .type => "type"
  | .json => "json"
  | .layout => "directory_layout"
  | .origin => "origin"
  | .srs => "srs"
  | .boundsSrs => "bounds_srs"
  | .resFactor => "res_factor"
  | .tileSize => "tile_size"

theorem keyOf_name {s : String} {k : Key} (h : keyOf s = some k) : s = keyName k := by
  unfold keyOf at h
  split at h <;> simp at h <;> subst h <;> rfl

/-- A parsed row: which field it sets, and to what. -/
inductive Upd (LD : Type)
  | name (v : List Char)
  | description (v : List Char)
  | attribution (v : List Char)
  | version (v : List Char)
  | format (v : Nat)
  | minzoom (v : Int)
  | maxzoom (v : Int)
  | center (v : List ℚ)
  | bounds (v : List ℚ)
  | type (v : Int)
  | json (f : Option LD → Option LD)
  | layout (v : List Char)
  | origin (v : List Char)
  | srs (v : List Char)
  | boundsSrs (v : List Char)
  | resFactor (v : ResFactor)
  | tileSize (v : Int × Int)

def Upd.key {LD : Type} : Upd LD → Key
  | .name _ => .name
  | .description _ => .description
  | .attribution _ => .attribution
  | .version _ => .version
  | .format _ => .format
  | .minzoom _ => .minzoom
  | .maxzoom _ => .maxzoom
  | .center _ => .center
  | .bounds _ => .bounds
  | .type _ => .type
  | .json _ => .json
  | .layout _ => .layout
  | .origin _ => .origin
  | .srs _ => .srs
  | .boundsSrs _ => .boundsSrs
  | .resFactor _ => .resFactor
  | .tileSize _ => .tileSize

def put {LD : Type} (md : Metadata LD) : Upd LD → Metadata LD
  | .name v => { md with name := v }
  | .description v => { md with description := v }
  | .attribution v => { md with attribution := v }
  | .version v => { md with version := v }
  | .format v => { md with format := v }
  | .minzoom v => { md with minZoom := v }
  | .maxzoom v => { md with maxZoom := v }
  | .center v => { md with center := v }
  | .bounds v => { md with bounds := v }
  | .type v => { md with type := v }
  | .json f => { md with layerData := f md.layerData }
  | .layout v => { md with directoryLayout := v }
  | .origin v => { md with origin := v }
  | .srs v => { md with srs := v }
  | .boundsSrs v => { md with boundsSrs := v }
  | .resFactor v => { md with resFactor := v }
  | .tileSize v => { md with tileSize := some v }

theorem put_comm {LD : Type} (md : Metadata LD) (a b : Upd LD) (h : a.key ≠ b.key) :
    put (put md a) b = put (put md b) a := by
  cases a <;> cases b <;> first | rfl | exact absurd rfl h

/-- Parsing a row, independently of the metadata so far. -/
def parseRow {LD : Type} (rnd : ℚ → ℚ) (cd : Codec LD) (row : String × List Char) :
    Res (Option (Upd LD)) :=
  match keyOf row.1 with
  | none => .ok none
  | some .name => .ok (some (.name row.2))
  | some .description => .ok (some (.description row.2))
  | some .attribution => .ok (some (.attribution row.2))
  | some .version => .ok (some (.version row.2))
  | some .format => .ok (some (.format (stringToTileFormat row.2)))
  | some .minzoom => (atoi row.2).bind fun n => .ok (some (.minzoom n))
  | some .maxzoom => (atoi row.2).bind fun n => .ok (some (.maxzoom n))
  | some .center => (stringToFloats rnd 3 row.2).bind fun n => .ok (some (.center n))
  | some .bounds => (stringToFloats rnd 4 row.2).bind fun n => .ok (some (.bounds n))
  | some .type => .ok (some (.type (stringToLayerType row.2)))
  | some .json => match cd.dec row.2 with
    | none => .err
    | some d => .ok (some (.json (cd.over row.2 d)))
  | some .layout => .ok (some (.layout row.2))
  | some .origin => .ok (some (.origin row.2))
  | some .srs => .ok (some (.srs row.2))
  | some .boundsSrs => .ok (some (.boundsSrs row.2))
  | some .resFactor => .ok (some (.resFactor (stringToResFactor rnd row.2)))
  | some .tileSize => (stringToTileSize row.2).bind fun n => .ok (some (.tileSize n))

def putO {LD : Type} (md : Metadata LD) : Option (Upd LD) → Metadata LD
  | none => md
  | some a => put md a

theorem putRow_eq {LD : Type} (rnd : ℚ → ℚ) (cd : Codec LD) (md : Metadata LD)
    (row : String × List Char) :
    putRow rnd cd md row = (parseRow rnd cd row).bind fun o => .ok (putO md o) := by
  obtain ⟨k, v⟩ := row
  unfold putRow
  dsimp only
  split
  case h_18 =>
    have hk : keyOf k = none := by
      unfold keyOf
      split <;> first | rfl | (exfalso; simp_all)
    simp [parseRow, hk, Res.bind, putO]
  all_goals first
    | rfl
    | (simp only [parseRow, keyOf]; cases atoi v <;> rfl)
    | (simp only [parseRow, keyOf]; cases stringToFloats rnd 3 v <;> rfl)
    | (simp only [parseRow, keyOf]; cases stringToFloats rnd 4 v <;> rfl)
    | (simp only [parseRow, keyOf]; cases stringToTileSize v <;> rfl)
    | (simp only [parseRow, keyOf]; cases cd.dec v <;> rfl)

theorem putRows_ok {LD : Type} (rnd : ℚ → ℚ) (cd : Codec LD)
    (rows : List (String × List Char)) (f : String × List Char → Option (Upd LD)) :
    ∀ (md : Metadata LD), (∀ r ∈ rows, parseRow rnd cd r = .ok (f r)) →
      putRows rnd cd md rows = .ok (rows.foldl (fun md r => putO md (f r)) md) := by
  induction rows with
  | nil => intro md _; rfl
  | cons r rs ih =>
    intro md h
    rw [putRows, putRow_eq, h r (by simp)]
    simp only [Res.bind, List.foldl_cons]
    exact ih _ (fun r hr => h r (by simp [hr]))

theorem parseRow_key {LD : Type} {rnd : ℚ → ℚ} {cd : Codec LD} {r : String × List Char}
    {u : Upd LD} (h : parseRow rnd cd r = .ok (some u)) : keyOf r.1 = some u.key := by
  unfold parseRow at h
  cases hk : keyOf r.1 with
  | none => rw [hk] at h; simp at h
  | some k' =>
    rw [hk] at h
    cases k' <;> simp only [Res.bind] at h <;> (try split at h) <;> simp at h <;> subst h <;> rfl

/-- The order of rows with distinct names does not matter when all of them can be parsed. -/
theorem putRows_perm {LD : Type} (rnd : ℚ → ℚ) (cd : Codec LD) (md md' : Metadata LD)
    (rows rows' : List (String × List Char)) (hp : rows'.Perm rows)
    (hnd : (rows.map Prod.fst).Nodup) (h : putRows rnd cd md rows = .ok md') :
    putRows rnd cd md rows' = .ok md' := by
  have hex : ∀ (rows : List (String × List Char)) (md md' : Metadata LD),
      putRows rnd cd md rows = .ok md' → ∀ r ∈ rows, ∃ o, parseRow rnd cd r = .ok o := by
    intro rows
    induction rows with
    | nil => intro _ _ _ r hr; simp at hr
    | cons a t ih =>
      intro md md' h r hr
      rw [putRows, putRow_eq] at h
      cases hpa : parseRow rnd cd a with
      | err => rw [hpa] at h; simp [Res.bind] at h
      | panic => rw [hpa] at h; simp [Res.bind] at h
      | ok o =>
        rw [hpa] at h
        simp only [Res.bind] at h
        rcases List.mem_cons.mp hr with rfl | hr
        · exact ⟨o, hpa⟩
        · exact ih _ _ h r hr
  have hex' := hex rows md md' h
  let f : String × List Char → Option (Upd LD) := fun r =>
    match parseRow rnd cd r with
    | .ok o => o
    | _ => none
  have hf : ∀ r ∈ rows, parseRow rnd cd r = .ok (f r) := by
    intro r hr
    obtain ⟨o, ho⟩ := hex' r hr
    simp only [f, ho]
  have e1 := putRows_ok rnd cd rows f md hf
  have e2 := putRows_ok rnd cd rows' f md (fun r hr => hf r (hp.mem_iff.mp hr))
  rw [e1] at h
  rw [e2, ← h]
  congr 1
  refine hp.foldl_eq' ?_ md
  intro x hx y hy z
  by_cases hxy : x = y
  · subst hxy; rfl
  · have hx' := hp.mem_iff.mp hx
    have hy' := hp.mem_iff.mp hy
    have hne : x.1 ≠ y.1 := by
      intro he
      exact hxy (List.inj_on_of_nodup_map hnd hx' hy' he)
    cases hfx : f x with
    | none => simp [putO]
    | some a =>
      cases hfy : f y with
      | none => simp [putO]
      | some b =>
        simp only [putO]
        refine put_comm z a b ?_
        intro hab
        have h1 := hf x hx'
        have h2 := hf y hy'
        rw [hfx] at h1
        rw [hfy] at h2
        have k1 := parseRow_key h1
        have k2 := parseRow_key h2
        rw [← hab] at k2
        exact hne ((keyOf_name k1).trans (keyOf_name k2).symm)

theorem putRows_append {LD : Type} (rnd : ℚ → ℚ) (cd : Codec LD)
    (a b : List (String × List Char)) : ∀ md : Metadata LD,
      putRows rnd cd md (a ++ b) = (putRows rnd cd md a).bind fun md => putRows rnd cd md b := by
  induction a with
  | nil => intro md; rfl
  | cons r t ih =>
    intro md
    rw [List.cons_append, putRows, putRows]
    cases putRow rnd cd md r with
    | ok m => simp only [Res.bind]; exact ih m
    | err => rfl
    | panic => rfl

theorem floatsLoop_map (rnd : ℚ → ℚ) (l : List ℚ) : ∀ (pre : List ℚ) (k : Nat) (e : Bool),
    k = l.length → (l ≠ [] ∨ e = false) →
    floatsLoop rnd (l.map (formatF 8)) pre.length (pre ++ List.replicate k 0) e
      = .ok (pre ++ l.map fun q => rnd (roundDec 8 q)) := by
  induction l with
  | nil =>
    intro pre k e hk he
    simp at he
    subst hk; subst he
    simp [floatsLoop]
  | cons q t ih =>
    intro pre k e hk _
    subst hk
    simp only [List.map_cons, floatsLoop]
    rw [if_pos (by simp)]
    rw [trimSpace_id formatF_plain.2, parseFloat_formatF]
    simp only [List.length_cons, List.replicate_succ]
    have : (pre ++ 0 :: List.replicate t.length (0 : ℚ)).set pre.length (rnd (roundDec 8 q))
        = (pre ++ [rnd (roundDec 8 q)]) ++ List.replicate t.length 0 := by
      simp
    rw [this]
    have := ih (pre ++ [rnd (roundDec 8 q)]) t.length false rfl (Or.inr rfl)
    simp only [List.length_append, List.length_singleton] at this
    rw [this]
    simp

theorem stringToFloats_back (rnd : ℚ → ℚ) (l : List ℚ) (n : Nat) (hl : l.length = n) (hn : 0 < n) :
    stringToFloats rnd n (floatsToString l) = .ok (l.map fun q => rnd (roundDec 8 q)) := by
  have hne : l ≠ [] := by intro h; subst h; simp at hl; omega
  unfold stringToFloats floatsToString
  rw [split_join ',' _ (by simpa using hne) (by
    intro a ha
    simp only [List.mem_map] at ha
    obtain ⟨q, _, rfl⟩ := ha
    exact formatF_plain.1)]
  have := floatsLoop_map rnd l [] n false hl.symm (Or.inl hne)
  simpa using this

theorem stringToTileSize_back (t : Int × Int) (h1 : IsI64 t.1) (h2 : IsI64 t.2) :
    stringToTileSize (tileSizeToString t) = .ok t := by
  unfold stringToTileSize tileSizeToString
  rw [split_join ',' _ (by simp) (by
    intro a ha
    simp at ha
    rcases ha with rfl | rfl <;> exact itoa_plain.1)]
  simp only [sizeLoop, trimSpace_id itoa_plain.2, parseInt_itoa_10 _ h1, parseInt_itoa_10 _ h2]
  simp

theorem atoi_itoa (n : Int) (h : IsI64 n) : atoi (itoa n) = .ok n := by
  unfold atoi
  rw [parseInt_itoa_10 n h]

theorem formatF_ne_nil (p : Nat) (q : ℚ) : formatF p q ≠ [] := by
  unfold formatF; simp

theorem join_ne_nil (l : List (List Char)) (h : l ≠ []) (h' : ∀ a ∈ l, a ≠ []) : join ',' l ≠ [] := by
  cases l with
  | nil => exact absurd rfl h
  | cons a t =>
    cases t with
    | nil => simpa [join] using h' a (by simp)
    | cons b r => simp [join]

theorem itoa_ne_nil (n : Int) : itoa n ≠ [] := by
  unfold itoa
  split
  · simp
  · exact toDigits_ne_nil _

theorem formatF_ne_sqrt2 (p : Nat) (q : ℚ) : formatF p q ≠ "sqrt2".toList := by
  intro h
  have : 's' ∈ formatF p q := by rw [h]; decide
  rcases formatF_chars this with h | h | h <;> revert h <;> decide

theorem parseFloat_nil (rnd : ℚ → ℚ) : parseFloat rnd [] = none := rfl

end Verif.Mbtiles
