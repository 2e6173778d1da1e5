import Verif.Model.Mbtiles

/-!
# Model of the life of a tileset file: `CreateDB`, `NewDB`, `ReadGrid` of mbtiles/mbtiles.go

A file is the contents of its tables. SQLite is assumed: every statement outside a transaction is atomic and durable, `CREATE TABLE`
and `CREATE INDEX` of an existing name fail, `SELECT ... LIMIT 1` may return any row. A file that does not exist is an empty one.
gzip, zlib and encoding/json are parameters with laws.
-/
namespace Verif.Mbtiles

/-- A row of `grids` (read at mbtiles/mbtiles.go:296). -/
structure GridRow where
  z : Nat
  x : Nat
  y : Nat
  grid : Blob

/-- A row of `grid_data` (read at mbtiles/mbtiles.go:311); `none` is a NULL name. -/
structure KeyRow where
  z : Nat
  x : Nat
  y : Nat
  name : Option String
  json : Blob

/-- A tileset file: the tables of mbtiles/mbtiles.go:226-247 and those read at mbtiles/mbtiles.go:195-204, 296, 311. -/
structure File where
  tiles : Option (List TileRow) := none
  unique : Bool := false
  mdata : Option (List (String × List Char)) := none
  gridNames : List String := []
  samples : List Blob := []
  grids : List GridRow := []
  keys : List KeyRow := []

/-- `DB` (mbtiles/mbtiles.go:156-162) without its time stamp. -/
structure DB where
  format : TileFormat
  hasGrid : Bool
  comp : TileFormat
deriving DecidableEq, Repr

/-- `CreateDB` (mbtiles/mbtiles.go:220-266). `stop` is the number of steps (three statements and reading the file's time) that are done
before the database or the process fails, 4 or more if none does; `md` the entries of `md.ToMap()` in iteration order, if `md` is
not nil; `mdio` which statements of `UpdateMetadata` work. The error of `UpdateMetadata` is dropped. -/
def createDB (f : File) (fmt : TileFormat) (md : Option (List (String × List Char))) (stop : Nat) (mdio : List Bool) :
    File × Option DB :=
  if stop = 0 ∨ f.tiles.isSome then (f, none)
  else
    let f1 := { f with tiles := some [] }
    if stop = 1 ∨ f.unique then (f1, none)
    else
      let f2 := { f1 with unique := true }
      if stop = 2 ∨ f.mdata.isSome then (f2, none)
      else
        let f3 := { f2 with mdata := some [] }
        if stop = 3 then (f3, none)
        else
          (match md with
            | none => f3
            | some es => { f3 with mdata := some (updateMetadata ⟨[], none⟩ es mdio).1.afterCrash },
           some ⟨fmt, false, UNKNOWN⟩)

/-- The row a `SELECT ... LIMIT 1` returns: any, chosen by `i`. mbtiles/mbtiles.go:176, 204. -/
def pickRow {α : Type} (l : List α) (i : Nat) : Option α := l[i % l.length]?

/-- The names looked for in `sqlite_master` (mbtiles/mbtiles.go:195). -/
def gridTables : List String := ["grids", "grid_data", "grid_utfgrid", "keymap", "grid_key"]

/-- `NewDB` (mbtiles/mbtiles.go:164-218); `none` is an error. `i`, `j` choose the sample rows, `io` is whether the database works. -/
def newDB (order : List (TileFormat × List (List Nat))) (f : File) (i j : Nat) (io : Bool) : Option DB :=
  if io then
    match f.tiles with
    | none => none
    | some ts =>
      match newDBFormat order ((pickRow ts i).map fun r => r.data.getD []) with
      | none => none
      | some fmt =>
        if (f.gridNames.filter (· ∈ gridTables)).length = 5 then
          match pickRow f.samples j with
          | none => some ⟨fmt, false, UNKNOWN⟩
          | some s =>
            match detect order (s.getD []) with
            | none => none
            | some c => some ⟨fmt, true, c⟩
        else some ⟨fmt, false, UNKNOWN⟩
  else none

/-- `StoreTile` on a file (mbtiles/mbtiles.go:268-277): without the unique index `INSERT OR REPLACE` only inserts. -/
def storeFile (f : File) (z x y : Nat) (d : Blob) (io : Bool) : File × Bool :=
  match f.tiles with
  | none => (f, false)
  | some ts =>
    if f.unique then
      let r := storeTile ts z x y d io
      ({ f with tiles := some r.1 }, r.2)
    else if sqlUint x && sqlUint y && io then ({ f with tiles := some (ts ++ [⟨z, x, y, d⟩]) }, true)
    else (f, false)

/-- `UpdateMetadata` on a file (mbtiles/mbtiles.go:449-478); without the table the first statement fails. -/
def updateFile (f : File) (es : List (String × List Char)) (io : List Bool) : File × Bool :=
  match f.mdata with
  | none => (f, false)
  | some m =>
    let r := updateMetadata ⟨m, none⟩ es io
    ({ f with mdata := some r.1.afterCrash }, r.2)

/-- `ReadTile` on a file (mbtiles/mbtiles.go:279-289). -/
def readFile (f : File) (z x y : Nat) (io : Bool) : ReadRes :=
  match f.tiles with
  | none => .err
  | some ts => readTile ts z x y io

/-! ## UTF grids (mbtiles/mbtiles.go:291-370) -/

/-- encoding/json for maps, with the type `J` of JSON values (mbtiles/mbtiles.go:323, 352, 361). `whole` is `Unmarshal`, which wants the text to be
one value; `first` is `Decode`, which reads the first value. Both give `none` for what is not JSON or neither an object nor null, `some none` for
null. -/
structure JCodec (J : Type) where
  obj : List (String × J) → J
  nul : J
  whole : List Nat → Option (Option (List (String × J)))
  first : List Nat → Option (Option (List (String × J)))
  encode : List (String × J) → List Nat

/-- compress/zlib and compress/gzip (mbtiles/mbtiles.go:337-349): `unzip true` is zlib; `none` is a bad header. -/
structure Comp where
  zip : Bool → List Nat → List Nat
  unzip : Bool → List Nat → Option (List Nat)

/-- Assignment to a Go map (mbtiles/mbtiles.go:324, 355). -/
def setKey {J : Type} (m : List (String × J)) (k : String) (v : J) : List (String × J) := m.filter (fun p => p.1 ≠ k) ++ [(k, v)]

/-- `valuejson` after `json.Unmarshal` (mbtiles/mbtiles.go:322-323), whose error is dropped: what is no object counts as an empty one. -/
def keyValue {J : Type} (jc : JCodec J) (text : Blob) : J :=
  match jc.whole (text.getD []) with
  | none => jc.obj []
  | some none => jc.nul
  | some (some m) => jc.obj m

/-- The loop over the key rows (mbtiles/mbtiles.go:316-325); `none`: a NULL name cannot be scanned into a string. -/
def keyData {J : Type} (jc : JCodec J) : List KeyRow → List (String × J) → Option (List (String × J))
  | [], m => some m
  | r :: rs, m =>
    match r.name with
    | none => none
    | some k => keyData jc rs (setKey m k (keyValue jc r.json))

/-- Outcome of `ReadGrid`. mbtiles/mbtiles.go:291-370. -/
inductive GridRes
  | ok | err | panic
deriving DecidableEq, Repr

/-- `ReadGrid` (mbtiles/mbtiles.go:291-370): outcome and `*data` afterwards. Assigning to the nil map that `Decode` leaves when the grid is
no JSON object panics (mbtiles/mbtiles.go:355). -/
def readGrid {J : Type} (jc : JCodec J) (cp : Comp) (db : DB) (f : File) (z x y : Nat) (io : Bool) (data : Blob) : GridRes × Blob :=
  if !db.hasGrid then (.err, data)
  else if !(sqlUint x && sqlUint y && io) then (.err, data)
  else
    match f.grids.find? (fun r => r.z == z && r.x == x && r.y == y) with
    | none => (.ok, none)
    | some g =>
      match keyData jc (f.keys.filter fun r => r.z == z && r.x == x && r.y == y) [] with
      | none => (.err, g.grid)
      | some kd =>
        if kd.length = 0 then (.ok, g.grid)
        else
          match cp.unzip (db.comp == ZLIB) (g.grid.getD []) with
          | none => (.err, g.grid)
          | some text =>
            match jc.first text with
            | some (some m) => (.ok, some (cp.zip (db.comp == ZLIB) (jc.encode (setKey m "data" (jc.obj kd)))))
            | _ => (.panic, g.grid)

/-! ## Content types (mbtiles/mbtiles.go:76-99, 111-134) -/

/-- `TileFormat.ContentType` (mbtiles/mbtiles.go:76-97). -/
def contentType (t : TileFormat) : String :=
  if t = PNG then "image/png"
  else if t = JPG then "image/jpeg"
  else if t = PBF then "application/x-protobuf"
  else if t = WEBP then "image/webp"
  else if t = LERC then "image/lerc"
  else if t = TIF then "image/tif"
  else if t = TIFF then "image/tiff"
  else if t = TERRAIN then "application/vnd.quantized-mesh"
  else ""

/-- `LayerType.String` (mbtiles/mbtiles.go:111-113): `none` is an index-out-of-range panic. -/
def layerTypeString (t : Int) : Option (List Char) := if t < 0 then none else layerTypeStrings[t.toNat]?

/-- `LayerType.UnmarshalJSON` for a JSON string (mbtiles/mbtiles.go:119-134); `none` is an error. -/
def layerTypeOf (s : List Char) : Option Int := (indexFrom s 0 layerTypeStrings).map fun (i : Nat) => (i : Int)

end Verif.Mbtiles
