import Verif.Model.GoFloat

/-!
# Model of mbtiles/mbtiles.go and mbtiles/metadata.go

SQLite and database/sql are not code of /repo: a table is a list of rows, each autocommitted
statement and each commit is atomic and durable, `SELECT` without `ORDER BY` may return the rows in
any order, and database/sql refuses `uint64` arguments with the high bit set.
-/
namespace Verif.Mbtiles
open Verif.Go

/-! ## Formats (mbtiles/mbtiles.go:23-74, mbtiles/metadata.go:129-141) -/

/-- `TileFormat` (mbtiles/mbtiles.go:23), a `uint8`. -/
abbrev TileFormat := Nat

/-- mbtiles/mbtiles.go:23-37. -/
def UNKNOWN : TileFormat := 0   -- mbtiles/mbtiles.go:26
/-- mbtiles/mbtiles.go:23-37. -/
def GZIP : TileFormat := 1      -- mbtiles/mbtiles.go:27
/-- mbtiles/mbtiles.go:23-37. -/
def ZLIB : TileFormat := 2      -- mbtiles/mbtiles.go:28
/-- mbtiles/mbtiles.go:23-37. -/
def PNG : TileFormat := 3       -- mbtiles/mbtiles.go:29
/-- mbtiles/mbtiles.go:23-37. -/
def JPG : TileFormat := 4       -- mbtiles/mbtiles.go:30
/-- mbtiles/mbtiles.go:23-37. -/
def PBF : TileFormat := 5       -- mbtiles/mbtiles.go:31
/-- mbtiles/mbtiles.go:23-37. -/
def WEBP : TileFormat := 6      -- mbtiles/mbtiles.go:32
/-- mbtiles/mbtiles.go:23-37. -/
def LERC : TileFormat := 7      -- mbtiles/mbtiles.go:33
/-- mbtiles/mbtiles.go:23-37. -/
def TIFF : TileFormat := 8      -- mbtiles/mbtiles.go:34
/-- mbtiles/mbtiles.go:23-37. -/
def TERRAIN : TileFormat := 9   -- mbtiles/mbtiles.go:35
/-- mbtiles/mbtiles.go:23-37. -/
def TIF : TileFormat := 10      -- mbtiles/mbtiles.go:36

/-- `formatStrings` (mbtiles/mbtiles.go:39-51). -/
def formatStrings : List (List Char) :=
  ["", "pbf", "png", "jpg", "webp", "gzib", "zlib", "lerc", "tiff", "terrain", "tif"].map
    String.toList

/-- `TileFormat.String` (mbtiles/mbtiles.go:53-74). -/
def formatName (t : TileFormat) : List Char :=
  if t = PNG then "png".toList
  else if t = JPG then "jpg".toList
  else if t = PBF then "pbf".toList
  else if t = WEBP then "webp".toList
  else if t = LERC then "lerc".toList
  else if t = TIFF then "tiff".toList
  else if t = TIF then "tif".toList
  else if t = TERRAIN then "terrain".toList
  else []

/-- The loop `for i, k := range table { if k == s { return i } }` from index `i`. mbtiles/metadata.go:129-137. -/
def indexFrom (s : List Char) : Nat → List (List Char) → Option Nat
  | _, [] => none
  | i, k :: t => if k = s then some i else indexFrom s (i + 1) t

/-- `StringToTileFormat` (mbtiles/metadata.go:129-137). -/
def stringToTileFormat (s : List Char) : TileFormat := (indexFrom s 0 formatStrings).getD UNKNOWN

/-- `TileFormatToString` (mbtiles/metadata.go:139-141): `none` is an index-out-of-range panic. -/
def tileFormatToString (f : TileFormat) : Option (List Char) := formatStrings[f]?

/-- `layerTypeStrings` (mbtiles/mbtiles.go:106-109). -/
def layerTypeStrings : List (List Char) := ["baselayer", "overlay"].map String.toList

/-- `stringToLayerType` (mbtiles/mbtiles.go:136-144). -/
def stringToLayerType (s : List Char) : Int := ((indexFrom s 0 layerTypeStrings).getD 0 : Nat)

/-- `layerTypeToString` (mbtiles/mbtiles.go:146-154). -/
def layerTypeToString (t : Int) : List Char :=
  if t = 0 then "baselayer".toList else if t = 1 then "overlay".toList else []

/-! ## Sniffing (mbtiles/mbtiles.go:508-543) -/

/-- The map literal `patterns` (mbtiles/mbtiles.go:509-517), as a list of its entries. -/
def patterns : List (TileFormat × List (List Nat)) :=
  [(GZIP, [[0x1f, 0x8b]]),
   (ZLIB, [[0x78, 0x9c]]),
   (PNG, [[0x89, 0x50, 0x4E, 0x47, 0x0D, 0x0A, 0x1A, 0x0A]]),
   (JPG, [[0xFF, 0xD8, 0xFF]]),
   (WEBP, [[0x52, 0x49, 0x46, 0x46, 0xc0, 0x00, 0x00, 0x00, 0x57, 0x45, 0x42, 0x50, 0x56, 0x50]]),
   (LERC, [[0x43, 0x6E, 0x74, 0x5A, 0x49, 0x6D, 0x61, 0x67, 0x65, 0x20],
           [0x4C, 0x65, 0x72, 0x63, 0x32, 0x20]]),
   (TIFF, [[0x4D, 0x4D], [0x49, 0x49]])]

/-- The double loop over the patterns in iteration order `ps` (mbtiles/mbtiles.go:519-525). -/
def sniff (data : List Nat) : List (TileFormat × List (List Nat)) → Option TileFormat
  | [] => none
  | (f, pats) :: r => if pats.any (fun p => p.isPrefixOf data) then some f else sniff data r

/-- Little-endian number of eight bytes at `off`.
Go library encoding/binary and Go language, at mbtiles/mbtiles.go:531-540. -/
def le64 (data : List Nat) (off : Nat) : Nat :=
  ((data.drop off).take 8).foldr (fun b n => b + 256 * n) 0

/-- IEEE-754 `==` on the bit patterns: NaN is unequal to itself, the two zeros are equal.
Go library encoding/binary and Go language, at mbtiles/mbtiles.go:531-540. -/
def feq (a b : Nat) : Bool :=
  let isNaN (n : Nat) := n % 2 ^ 63 > 0x7ff0000000000000
  if isNaN a || isNaN b then false
  else a == b || (a % 2 ^ 63 == 0 && b % 2 ^ 63 == 0)

/-- `detectTileFormat` (mbtiles/mbtiles.go:508-543) for one iteration order of the map; `none` is an error.
The quantized-mesh header of go-quantized-mesh is 88 bytes: centre (3 float64), minimum and maximum
height (2 float32), bounding sphere centre (3 float64) and radius, horizon point (3 float64). -/
def detect (order : List (TileFormat × List (List Nat))) (data : List Nat) : Option TileFormat :=
  match sniff data order with
  | some f => some f
  | none =>
    if data.length < 88 then none
    else if feq (le64 data 0) (le64 data 32) && feq (le64 data 8) (le64 data 40)
        && feq (le64 data 16) (le64 data 48) then some TERRAIN
    else none

/-- The format `NewDB` gives a tileset (mbtiles/mbtiles.go:175-186): that of the first tile, gzip meaning
pbf; `none` is an error (an empty tile table is one: `sql.ErrNoRows`). -/
def newDBFormat (order : List (TileFormat × List (List Nat))) (firstTile : Option (List Nat)) :
    Option TileFormat :=
  match firstTile with
  | none => none
  | some d =>
    match detect order d with
    | none => none
    | some f => some (if f = GZIP then PBF else f)

/-! ## Tiles (mbtiles/mbtiles.go:268-289) -/

/-- A `[]byte`: `none` is nil. Go language, for mbtiles/mbtiles.go:268-289. -/
abbrev Blob := Option (List Nat)

/-- A row of `tiles` (mbtiles/mbtiles.go:227). -/
structure TileRow where
  z : Nat
  x : Nat
  y : Nat
  data : Blob
deriving DecidableEq, Repr

/-- database/sql accepts a uint64 argument only below 2^63. Called at mbtiles/mbtiles.go:271, 280. -/
def sqlUint (n : Nat) : Bool := n < 9223372036854775808

/-- `StoreTile` (mbtiles/mbtiles.go:268-277).  `io` is whether the database can execute the statement.
`INSERT OR REPLACE` under the unique index (mbtiles/mbtiles.go:234) removes the conflicting rows first.
Result: the table afterwards and whether it returned nil. -/
def storeTile (t : List TileRow) (z x y : Nat) (d : Blob) (io : Bool) : List TileRow × Bool :=
  if sqlUint x && sqlUint y && io then
    (t.filter (fun r => !(r.z == z && r.x == x && r.y == y)) ++ [⟨z, x, y, d⟩], true)
  else (t, false)

/-- Result of `ReadTile`. mbtiles/mbtiles.go:279-289. -/
inductive ReadRes
  | ok (d : Blob)
  | err
deriving DecidableEq, Repr

/-- `ReadTile` (mbtiles/mbtiles.go:279-289): first matching row, nil if there is none. -/
def readTile (t : List TileRow) (z x y : Nat) (io : Bool) : ReadRes :=
  if sqlUint x && sqlUint y && io then
    match t.find? (fun r => r.z == z && r.x == x && r.y == y) with
    | none => .ok none
    | some r => .ok r.data
  else .err

/-! ## Metadata -/

/-- `ResFactor interface{}` (mbtiles/metadata.go:44). -/
inductive ResFactor
  | nil
  | str (s : List Char)
  | num (q : Rat)
  | other
deriving DecidableEq, Repr

/-- `Metadata` (mbtiles/metadata.go:28-46).  `LD` is the type of layer data, kept abstract. -/
structure Metadata (LD : Type) where
  name : List Char := []
  format : TileFormat := 0
  bounds : List Rat := [0, 0, 0, 0]
  center : List Rat := [0, 0, 0]
  minZoom : Int := 0
  maxZoom : Int := 0
  description : List Char := []
  version : List Char := []
  type : Int := 0
  attribution : List Char := []
  layerData : Option LD := none
  directoryLayout : List Char := []
  origin : List Char := []
  srs : List Char := []
  boundsSrs : List Char := []
  resFactor : ResFactor := .nil
  tileSize : Option (Int × Int) := none
deriving DecidableEq, Repr

/-- A result that may be an error or a panic.
Go error returns in mbtiles/mbtiles.go:372-447 and mbtiles/metadata.go:143-218. -/
inductive Res (α : Type)
  | ok (a : α)
  | err
  | panic
deriving DecidableEq, Repr

/-- encoding/json of layer data (mbtiles/metadata.go:66, mbtiles/mbtiles.go:409): a parameter here, given by `layerDataText`
(Model/JsonText). `dec` decodes into a nil pointer: `none` is an error, `some none` the nil pointer (the text `null`). `more` is what
decoding a text that is no error leaves in a pointer to data; whether a text is an error does not depend on the data
(C95_json_row_again). -/
structure Codec (LD : Type) where
  enc : LD → List Char
  dec : List Char → Option (Option LD)
  more : LD → List Char → Option LD

/-- `json.Unmarshal` into `md.LayerData` (mbtiles/mbtiles.go:409) when the text is no error and gives `d` in a nil pointer. -/
def Codec.over {LD : Type} (cd : Codec LD) (text : List Char) (d : Option LD) : Option LD → Option LD
  | none => d
  | some old => cd.more old text

/-- `boundsToString`, `centerToString` (mbtiles/metadata.go:151-158, 168-175). -/
def floatsToString (l : List Rat) : List Char := join ',' (l.map (formatF 8))

/-- `resFactorToString` (mbtiles/metadata.go:177-186). -/
def resFactorToString : ResFactor → List Char
  | .str s => s
  | .num q => formatF 8 q
  | .nil => []
  | .other => []

/-- `tileSizeToString` (mbtiles/metadata.go:200-207). -/
def tileSizeToString (t : Int × Int) : List Char := join ',' [itoa t.1, itoa t.2]

/-- `ret[k] = v` under `if v != ""`. mbtiles/metadata.go:48-94. -/
def entryIf (k : String) (v : List Char) : List (String × List Char) :=
  if v = [] then [] else [(k, v)]

/-- `if m.LayerData != nil` (mbtiles/metadata.go:65-68). -/
def jsonEntry {LD : Type} (cd : Codec LD) : Option LD → List (String × List Char)
  | none => []
  | some d => [("json", cd.enc d)]

/-- `if m.ResFactor != nil` (mbtiles/metadata.go:86-88). -/
def resEntry : ResFactor → List (String × List Char)
  | .nil => []
  | r => [("res_factor", resFactorToString r)]

/-- `if m.TileSize != nil` (mbtiles/metadata.go:90-92). -/
def sizeEntry : Option (Int × Int) → List (String × List Char)
  | none => []
  | some t => [("tile_size", tileSizeToString t)]

/-- `ToMap` (mbtiles/metadata.go:48-94): the entries of the map; `none` is a panic (unknown format). -/
def toMap {LD : Type} (cd : Codec LD) (m : Metadata LD) : Option (List (String × List Char)) :=
  match tileFormatToString m.format with
  | none => none
  | some f => some <|
    entryIf "name" m.name ++ entryIf "description" m.description ++
    [("minzoom", itoa m.minZoom), ("maxzoom", itoa m.maxZoom),
     ("center", floatsToString m.center), ("bounds", floatsToString m.bounds),
     ("type", layerTypeToString m.type), ("format", f)] ++
    jsonEntry cd m.layerData ++
    entryIf "directory_layout" m.directoryLayout ++ entryIf "origin" m.origin ++
    entryIf "srs" m.srs ++ entryIf "bounds_srs" m.boundsSrs ++
    resEntry m.resFactor ++
    sizeEntry m.tileSize

/-- The loop of `stringToBounds`/`stringToCenter` (mbtiles/metadata.go:143-149, 160-166): `acc` has the
array's size, `err` is the error of the last component seen. -/
def floatsLoop (rnd : Rat → Rat) : List (List Char) → Nat → List Rat → Bool → Res (List Rat)
  | [], _, acc, err => if err then .err else .ok acc
  | v :: vs, i, acc, _ =>
    if i < acc.length then
      match parseFloat rnd (trimSpace v) with
      | some q => floatsLoop rnd vs (i + 1) (acc.set i q) false
      | none => floatsLoop rnd vs (i + 1) (acc.set i 0) true
    else .panic

/-- `stringToBounds`, `stringToCenter` with array size `n`. mbtiles/metadata.go:143-149, 160-166. -/
def stringToFloats (rnd : Rat → Rat) (n : Nat) (s : List Char) : Res (List Rat) :=
  floatsLoop rnd (split ',' s) 0 (List.replicate n 0) false

/-- The loop of `stringToTileSize` (mbtiles/metadata.go:209-218). -/
def sizeLoop : List (List Char) → Nat → Int × Int → Bool → Res (Int × Int)
  | [], _, acc, err => if err then .err else .ok acc
  | v :: vs, i, acc, _ =>
    if i < 2 then
      let r : Int × Bool := match parseInt (trimSpace v) 10 with
        | .ok n => (n, false)
        | .error (_, n) => (n, true)
      sizeLoop vs (i + 1) (if i = 0 then (r.1, acc.2) else (acc.1, r.1)) r.2
    else .panic

/-- `stringToTileSize` (mbtiles/metadata.go:209-218). -/
def stringToTileSize (s : List Char) : Res (Int × Int) := sizeLoop (split ',' s) 0 (0, 0) false

/-- `stringToResFactor` (mbtiles/metadata.go:188-198). -/
def stringToResFactor (rnd : Rat → Rat) (s : List Char) : ResFactor :=
  if s = "sqrt2".toList then .str s
  else match parseFloat rnd (trimSpace s) with
    | none => .nil
    | some q => .num q

/-- `strconv.Atoi` as used at mbtiles/mbtiles.go:399,401,435,440. -/
def atoi (s : List Char) : Res Int :=
  match parseInt s 10 with
  | .ok n => .ok n
  | .error _ => .err

/-- Continue with the value of a result.
Go error returns in mbtiles/mbtiles.go:372-447 and mbtiles/metadata.go:143-218. -/
def Res.bind {α β : Type} : Res α → (α → Res β) → Res β
  | .ok a, f => f a
  | .err, _ => .err
  | .panic, _ => .panic

/-- One row of the `switch` in `GetMetadata` (mbtiles/mbtiles.go:387-426). -/
def putRow {LD : Type} (rnd : Rat → Rat) (cd : Codec LD) (md : Metadata LD)
    (row : String × List Char) : Res (Metadata LD) :=
  match row.1 with
  | "name" => .ok { md with name := row.2 }
  | "description" => .ok { md with description := row.2 }
  | "attribution" => .ok { md with attribution := row.2 }
  | "version" => .ok { md with version := row.2 }
  | "format" => .ok { md with format := stringToTileFormat row.2 }
  | "minzoom" => (atoi row.2).bind fun n => .ok { md with minZoom := n }
  | "maxzoom" => (atoi row.2).bind fun n => .ok { md with maxZoom := n }
  | "center" => (stringToFloats rnd 3 row.2).bind fun c => .ok { md with center := c }
  | "bounds" => (stringToFloats rnd 4 row.2).bind fun c => .ok { md with bounds := c }
  | "type" => .ok { md with type := stringToLayerType row.2 }
  | "json" => match cd.dec row.2 with
    | none => .err
    | some d => .ok { md with layerData := cd.over row.2 d md.layerData }
  | "directory_layout" => .ok { md with directoryLayout := row.2 }
  | "origin" => .ok { md with origin := row.2 }
  | "srs" => .ok { md with srs := row.2 }
  | "bounds_srs" => .ok { md with boundsSrs := row.2 }
  | "res_factor" => .ok { md with resFactor := stringToResFactor rnd row.2 }
  | "tile_size" => (stringToTileSize row.2).bind fun t => .ok { md with tileSize := some t }
  | _ => .ok md

/-- The row loop of `GetMetadata` (mbtiles/mbtiles.go:381-427). -/
def putRows {LD : Type} (rnd : Rat → Rat) (cd : Codec LD) :
    Metadata LD → List (String × List Char) → Res (Metadata LD)
  | md, [] => .ok md
  | md, r :: rs => (putRow rnd cd md r).bind fun md' => putRows rnd cd md' rs

/-- Smallest and largest zoom stored (mbtiles/mbtiles.go:431); `none` when there are no tiles (SQL NULL). -/
def zoomRange (tiles : List TileRow) : Option (Int × Int) :=
  match tiles with
  | [] => none
  | r :: rs => some (rs.foldl (fun (p : Int × Int) r => (min p.1 r.z, max p.2 r.z)) (r.z, r.z))

/-- `GetMetadata` (mbtiles/mbtiles.go:372-447); `rows` in the order the database returns them.  A NULL
minimum cannot be scanned into a string: an error. -/
def getMetadata {LD : Type} (rnd : Rat → Rat) (cd : Codec LD) (rows : List (String × List Char))
    (tiles : List TileRow) : Res (Metadata LD) :=
  (putRows rnd cd {} (rows.filter fun r => r.2 ≠ [])).bind fun md =>
    if md.maxZoom = 0 then
      match zoomRange tiles with
      | none => .err
      | some (mn, mx) => .ok { md with minZoom := mn, maxZoom := mx }
    else .ok md

/-- The row loop of `GetMetadata` (mbtiles/mbtiles.go:381-427) over rows that may have NULL in them, as a file of another tool can:
`rows.Scan` into a string fails on NULL (mbtiles/mbtiles.go:383-385). -/
def putRowsNull {LD : Type} (rnd : Rat → Rat) (cd : Codec LD) :
    Metadata LD → List (Option String × Option (List Char)) → Res (Metadata LD)
  | md, [] => .ok md
  | md, (some k, some v) :: rs => (putRow rnd cd md (k, v)).bind fun md' => putRowsNull rnd cd md' rs
  | _, _ :: _ => .err

/-- `GetMetadata` (mbtiles/mbtiles.go:372-447) on a table with NULLs: `value is not ''` holds of NULL. -/
def getMetadataNull {LD : Type} (rnd : Rat → Rat) (cd : Codec LD) (rows : List (Option String × Option (List Char)))
    (tiles : List TileRow) : Res (Metadata LD) :=
  (putRowsNull rnd cd {} (rows.filter fun r => r.2 ≠ some [])).bind fun md =>
    if md.maxZoom = 0 then
      match zoomRange tiles with
      | none => .err
      | some (mn, mx) => .ok { md with minZoom := mn, maxZoom := mx }
    else .ok md

/-! ## Updating metadata (mbtiles/mbtiles.go:449-478) -/

/-- The metadata table as one connection sees it.
SQLite and database/sql (assumed), used at mbtiles/mbtiles.go:449-478. -/
structure Store where
  committed : List (String × List Char)
  pending : Option (List (String × List Char))  -- contents inside an open transaction
deriving DecidableEq, Repr

/-- SQL statements `UpdateMetadata` issues.
SQLite and database/sql (assumed), used at mbtiles/mbtiles.go:449-478. -/
inductive Stmt
  | deleteAll                         -- mbtiles/mbtiles.go:450-453, outside any transaction
  | begin                             -- mbtiles/mbtiles.go:458
  | insert (k : String) (v : List Char) -- mbtiles/mbtiles.go:471
  | commit                            -- mbtiles/mbtiles.go:476
deriving DecidableEq, Repr

/-- Effect of a statement. SQLite and database/sql (assumed), used at mbtiles/mbtiles.go:449-478. -/
def Store.exec (s : Store) : Stmt → Store
  | .deleteAll => match s.pending with
    | none => { s with committed := [] }
    | some _ => { s with pending := some [] }
  | .begin => { s with pending := some s.committed }
  | .insert k v => match s.pending with
    | none => { s with committed := s.committed ++ [(k, v)] }
    | some p => { s with pending := some (p ++ [(k, v)]) }
  | .commit => match s.pending with
    | none => s
    | some p => ⟨p, none⟩

/-- What is on disk if the process stops now.
SQLite and database/sql (assumed), used at mbtiles/mbtiles.go:449-478. -/
def Store.afterCrash (s : Store) : List (String × List Char) := s.committed

/-- The statements of `UpdateMetadata` for the map entries in iteration order (mbtiles/mbtiles.go:449-478). -/
def updateStmts (entries : List (String × List Char)) : List Stmt :=
  [.deleteAll, .begin] ++ entries.map (fun e => .insert e.1 e.2) ++ [.commit]

/-- The inserts of `UpdateMetadata`; `io` says of each statement whether it can be executed.
mbtiles/mbtiles.go:470-475. -/
def runInserts (s : Store) : List (String × List Char) → List Bool → Store × Bool × List Bool
  | [], io => (s, true, io)
  | e :: es, io =>
    if io.headD true then runInserts (s.exec (.insert e.1 e.2)) es io.tail
    else (s, false, io.tail)

/-- `UpdateMetadata` (mbtiles/mbtiles.go:449-478) when statement `i` fails iff `io[i] = false`: the store and
whether it returned nil.  The error of `Commit` is dropped (mbtiles/mbtiles.go:476); a failed commit leaves
the transaction's rows uncommitted. -/
def updateMetadata (s : Store) (entries : List (String × List Char)) (io : List Bool) :
    Store × Bool :=
  if io.headD true then
    let s1 := s.exec .deleteAll
    if io.tail.headD true then
      let s2 := s1.exec .begin
      match runInserts s2 entries io.tail.tail with
      | (s3, false, _) => (s3, false)
      | (s3, true, io') => if io'.headD true then (s3.exec .commit, true) else (s3, true)
    else (s1, false)
  else (s, false)

/-- `UpdateMetadata` (mbtiles/mbtiles.go:449-478) called with a metadata value: `md.ToMap()` runs after the deletion and the begin
(mbtiles/mbtiles.go:468); `order` is the iteration order of the map. The error of the preparation, which ends the process, is not
modelled. -/
def updateMd {LD : Type} (cd : Codec LD) (order : List (String × List Char) → List (String × List Char)) (s : Store) (m : Metadata LD)
    (io : List Bool) : Store × Res Unit :=
  match toMap cd m with
  | some es => ((updateMetadata s (order es) io).1, if (updateMetadata s (order es) io).2 then .ok () else .err)
  | none =>
    if io.headD true then
      if io.tail.headD true then ((s.exec .deleteAll).exec .begin, .panic) else (s.exec .deleteAll, .err)
    else (s, .err)

end Verif.Mbtiles
