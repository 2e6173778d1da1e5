import Verif.Model.GoFloat

/-!
# Model of the JSON documents of the package

The struct types with `json` tags (tilejson/tilejson.go:67-115, recipe/recipe.go:3-12, client/types.go:5-12,
mbtiles/metadata.go:28-46, 96-122, font/cover.go:25-44, sprite/sprite.go:108-126) and what encoding/json does with them.
The library is modelled by combinators, one per kind of Go type; a struct is the list of its fields with their tags.

A JSON text is modelled by what its grammar says (`J`): numbers keep their spelling, objects keep the order and the
repetitions of their members.  Decoding gives the value and whether there was no error: encoding/json goes on after a type
error and reports it at the end.
-/
namespace Verif.Doc

open Verif.Go

/-- Text. -/
abbrev Str := List Char

/-- JSON values. Go library encoding/json, for the decoding at client/client.go:55, mbtiles/mbtiles.go:409 and
font/cover.go:112-114. -/
inductive J
  | null
  | bool (b : Bool)
  | num (lit : Str)
  | str (s : Str)
  | arr (l : List J)
  | obj (l : List (Str × J))

/-- How encoding/json treats a Go type: the zero value, `isEmptyValue` (for `omitempty`), `Marshal` (`none`: an error or a
panic) and decoding into a variable that already has a value (`false`: an error is reported). Go library encoding/json, for
the decoding at client/client.go:55, mbtiles/mbtiles.go:409 and font/cover.go:112-114. -/
structure Codec (α : Type) where
  zero : α
  empty : α → Bool
  enc : α → Option J
  dec : α → J → α × Bool

/-- `string` and the named string types (tilejson/tilejson.go:15-55): null changes nothing. Go library encoding/json. -/
def strC : Codec Str where
  zero := []
  empty s := s.isEmpty
  enc s := some (.str s)
  dec old
    | .str s => (s, true)
    | .null => (old, true)
    | _ => (old, false)

/-- `int` and `int64`: only an integer literal that fits. Go library encoding/json, for tilejson/tilejson.go:72, 104-105. -/
def intC : Codec Int where
  zero := 0
  empty n := n == 0
  enc n := some (.num (itoa n))
  dec old
    | .num l =>
      match parseInt l 10 with
      | .ok n => (n, true)
      | .error _ => (old, false)
    | .null => (old, true)
    | _ => (old, false)

/-- `uint`, `uint32` and `TileFormat` with their number of bits. Go library encoding/json, for tilejson/tilejson.go:86-87,
100, 112-113, font/cover.go:34-37 and mbtiles/metadata.go:30. -/
def uintC (bits : Nat) : Codec Nat where
  zero := 0
  empty n := n == 0
  enc n := some (.num (itoa n))
  dec old
    | .num l =>
      match parseUint l 10 with
      | .ok n => if n < 2 ^ bits then (n, true) else (old, false)
      | .error _ => (old, false)
    | .null => (old, true)
    | _ => (old, false)

/-- `float64`; `short` is the shortest decimal `strconv.FormatFloat` finds.  A number beyond the range of
float64 is an error. Go library encoding/json, for tilejson/tilejson.go:69, 83-84. -/
def floatC (short : ℚ → Str) : Codec ℚ where
  zero := 0
  empty q := q == 0
  enc q := some (.num (short q))
  dec old
    | .num l =>
      match parse64 l with
      | some q => (q, true)
      | none => (old, false)
    | .null => (old, true)
    | _ => (old, false)

/-- Pointers: null is nil, anything else is decoded into what the pointer points to, or into a new variable. Go library
encoding/json, for tilejson/tilejson.go:82, 88-89, 96-97 and mbtiles/metadata.go:39, 45, 97-98. -/
def ptrC {α : Type} (c : Codec α) : Codec (Option α) where
  zero := none
  empty o := o.isNone
  enc
    | none => some .null
    | some a => c.enc a
  dec old
    | .null => (none, true)
    | j => let r := c.dec (old.getD c.zero) j; (some r.1, r.2)

/-- Marshal the elements in order. Go library encoding/json, for tilejson/tilejson.go:92-94. -/
def encList {α : Type} (c : Codec α) : List α → Option (List J)
  | [] => some []
  | a :: as =>
    match c.enc a, encList c as with
    | some j, some js => some (j :: js)
    | _, _ => none

/-- Decode the elements, each into the element that is there already, if any. Go library encoding/json, for
tilejson/tilejson.go:92-94. -/
def decList {α : Type} (c : Codec α) : List α → List J → List α × Bool
  | _, [] => ([], true)
  | [], j :: js =>
    let a := c.dec c.zero j
    let r := decList c [] js
    (a.1 :: r.1, a.2 && r.2)
  | o :: os, j :: js =>
    let a := c.dec o j
    let r := decList c os js
    (a.1 :: r.1, a.2 && r.2)

/-- Slices; `none` is the nil slice. Go library encoding/json, for tilejson/tilejson.go:92-94, 98, 110. -/
def sliceC {α : Type} (c : Codec α) : Codec (Option (List α)) where
  zero := none
  empty
    | none => true
    | some l => l.isEmpty
  enc
    | none => some .null
    | some l => (encList c l).map .arr
  dec old
    | .null => (none, true)
    | .arr js => let r := decList c (old.getD []) js; (some r.1, r.2)
    | _ => (old, false)

/-- Decode into an array: surplus elements are ignored, missing ones become zero. Go library encoding/json, for
tilejson/tilejson.go:69, 83-84. -/
def decArr {α : Type} (c : Codec α) : List α → List J → List α × Bool
  | [], _ => ([], true)
  | _ :: os, [] => (c.zero :: (decArr c os []).1, true)
  | o :: os, j :: js =>
    let a := c.dec o j
    let r := decArr c os js
    (a.1 :: r.1, a.2 && r.2)

/-- Arrays of `n > 0` elements: never empty. Go library encoding/json, for tilejson/tilejson.go:69, 83-84 and
mbtiles/metadata.go:31-32, 45. -/
def arrayC {α : Type} (n : Nat) (c : Codec α) : Codec (List α) where
  zero := List.replicate n c.zero
  empty _ := n == 0
  enc l := (encList c l).map .arr
  dec old
    | .null => (old, true)
    | .arr js => decArr c old js
    | _ => (old, false)

/-- `m[k] = v` on a map kept sorted by key. Go language, for tilejson/tilejson.go:109 and recipe/recipe.go:5. -/
def mapSet {α : Type} (k : Str) (v : α) : List (Str × α) → List (Str × α)
  | [] => [(k, v)]
  | (k', v') :: r =>
    if k = k' then (k, v) :: r
    else if k < k' then (k, v) :: (k', v') :: r
    else (k', v') :: mapSet k v r

/-- Marshal the entries, in the order of the keys. Go library encoding/json, for tilejson/tilejson.go:109. -/
def encMap {α : Type} (c : Codec α) : List (Str × α) → Option (List (Str × J))
  | [] => some []
  | (k, a) :: as =>
    match c.enc a, encMap c as with
    | some j, some js => some ((k, j) :: js)
    | _, _ => none

/-- Decode the members into a map, each into a new element. Go library encoding/json, for tilejson/tilejson.go:109. -/
def decMap {α : Type} (c : Codec α) : List (Str × α) → List (Str × J) → List (Str × α) × Bool
  | m, [] => (m, true)
  | m, (k, j) :: js =>
    let a := c.dec c.zero j
    let r := decMap c (mapSet k a.1 m) js
    (r.1, a.2 && r.2)

/-- `map[string]T`; `none` is the nil map. Go library encoding/json, for tilejson/tilejson.go:109, recipe/recipe.go:5 and
mbtiles/metadata.go:103. -/
def mapC {α : Type} (c : Codec α) : Codec (Option (List (Str × α))) where
  zero := none
  empty
    | none => true
    | some l => l.isEmpty
  enc
    | none => some .null
    | some l => (encMap c l).map .obj
  dec old
    | .null => (none, true)
    | .obj ms => let r := decMap c (old.getD []) ms; (some r.1, r.2)
    | _ => (old, false)

/-- The same codec for a type with other names for its parts. -/
def Codec.iso {α β : Type} (c : Codec β) (split : α → β) (join : β → α) : Codec α where
  zero := join c.zero
  empty a := c.empty (split a)
  enc a := c.enc (split a)
  dec a j := let r := c.dec (split a) j; (join r.1, r.2)

/-- The fields of a struct in order: key, `omitempty`, codec of the type. Fields tagged `-` are left out. -/
inductive Rec : Type → Type 1
  | nil : Rec Unit
  | cons {α β : Type} (key : Str) (om : Bool) (c : Codec α) (r : Rec β) : Rec (α × β)

/-- The zero struct. Go language. -/
def Rec.zero : {β : Type} → Rec β → β
  | _, .nil => ()
  | _, .cons _ _ c r => (c.zero, r.zero)

/-- The names of the fields. Go library encoding/json. -/
def Rec.keys : {β : Type} → Rec β → List Str
  | _, .nil => []
  | _, .cons k _ _ r => k :: r.keys

/-- The members written for a struct. Go library encoding/json (structEncoder). -/
def Rec.encAll : {β : Type} → Rec β → β → Option (List (Str × J))
  | _, .nil, _ => some []
  | _, .cons k om c r, v =>
    if om && c.empty v.1 then r.encAll v.2
    else
      match c.enc v.1, r.encAll v.2 with
      | some j, some ms => some ((k, j) :: ms)
      | _, _ => none

/-- `foldRune` on the characters that are in the orbit of an ASCII letter: upper case, the Kelvin sign and the long s.
Go library encoding/json (foldName). -/
def foldChar (ch : Char) : Char :=
  if 'A' ≤ ch ∧ ch ≤ 'Z' then Char.ofNat (ch.toNat + 32)
  else if ch.toNat = 0x212A then 'k'
  else if ch.toNat = 0x17F then 's'
  else ch

/-- `foldName`. Simplification: exact when compared with ASCII names. Go library encoding/json. -/
def fold (s : Str) : Str := s.map foldChar

/-- Decode into the first field whose name passes the test. Go library encoding/json (decodeState.object). -/
def Rec.put : {β : Type} → (Str → Bool) → Rec β → β → J → Option (β × Bool)
  | _, _, .nil, _, _ => none
  | _, p, .cons k _ c r, v, j =>
    if p k then let a := c.dec v.1 j; some ((a.1, v.2), a.2)
    else match r.put p v.2 j with
      | none => none
      | some b => some ((v.1, b.1), b.2)

/-- One member: the field of that name, else the field of that name up to case, else nothing. Go library encoding/json
(decodeState.object). -/
def Rec.member {β : Type} (r : Rec β) (v : β) (m : Str × J) : β × Bool :=
  match r.put (fun k => k == m.1) v m.2 with
  | some b => b
  | none =>
    match r.put (fun k => fold k == fold m.1) v m.2 with
    | some b => b
    | none => (v, true)

/-- The members in the order of the document. Go library encoding/json (decodeState.object). -/
def Rec.members {β : Type} (r : Rec β) : β → List (Str × J) → β × Bool
  | v, [] => (v, true)
  | v, m :: ms =>
    let a := r.member v m
    let b := r.members a.1 ms
    (b.1, a.2 && b.2)

/-- A struct type. Go library encoding/json. -/
def structC {β : Type} (r : Rec β) : Codec β where
  zero := r.zero
  empty _ := false
  enc v := (r.encAll v).map .obj
  dec old
    | .null => (old, true)
    | .obj ms => r.members old ms
    | _ => (old, false)

/-! ### `interface{}` -/

/-- What `interface{}` fields hold: nothing, or what decoding puts there; `int` is a Go integer a program put there.
mbtiles/metadata.go:44, 103, 126. -/
inductive Dyn
  | nil
  | bool (b : Bool)
  | num (q : ℚ)
  | int (n : Int)
  | str (s : Str)
  | list (l : List Dyn)
  | map (l : List (Str × Dyn))

mutual
/-- Marshal what an `interface{}` holds. Go library encoding/json, for mbtiles/metadata.go:66. -/
def Dyn.enc (short : ℚ → Str) : Dyn → J
  | .nil => .null
  | .bool b => .bool b
  | .num q => .num (short q)
  | .int n => .num (itoa n)
  | .str s => .str s
  | .list l => .arr (Dyn.encL short l)
  | .map l => .obj (Dyn.encM short l)
/-- the elements. Go library encoding/json, for mbtiles/metadata.go:66. -/
def Dyn.encL (short : ℚ → Str) : List Dyn → List J
  | [] => []
  | d :: ds => Dyn.enc short d :: Dyn.encL short ds
/-- the entries. Go library encoding/json, for mbtiles/metadata.go:66. -/
def Dyn.encM (short : ℚ → Str) : List (Str × Dyn) → List (Str × J)
  | [] => []
  | (k, d) :: ds => (k, Dyn.enc short d) :: Dyn.encM short ds
end

mutual
/-- Decode into an `interface{}`: numbers become float64. Go library encoding/json, for mbtiles/mbtiles.go:409. -/
def Dyn.dec : J → Dyn × Bool
  | .null => (.nil, true)
  | .bool b => (.bool b, true)
  | .num l =>
    match parse64 l with
    | some q => (.num q, true)
    | none => (.nil, false)
  | .str s => (.str s, true)
  | .arr l => (.list (Dyn.decL l).1, (Dyn.decL l).2)
  | .obj l => (.map (Dyn.decM [] l).1, (Dyn.decM [] l).2)
/-- the elements. Go library encoding/json, for mbtiles/mbtiles.go:409. -/
def Dyn.decL : List J → List Dyn × Bool
  | [] => ([], true)
  | j :: js => ((Dyn.dec j).1 :: (Dyn.decL js).1, (Dyn.dec j).2 && (Dyn.decL js).2)
/-- the members. Go library encoding/json, for mbtiles/mbtiles.go:409. -/
def Dyn.decM (m : List (Str × Dyn)) : List (Str × J) → List (Str × Dyn) × Bool
  | [] => (m, true)
  | (k, j) :: js =>
    ((Dyn.decM (mapSet k (Dyn.dec j).1 m) js).1, (Dyn.dec j).2 && (Dyn.decM (mapSet k (Dyn.dec j).1 m) js).2)
end

/-- `interface{}`. Go library encoding/json, for mbtiles/metadata.go:44, 103, 126. -/
def anyC (short : ℚ → Str) : Codec Dyn where
  zero := .nil
  empty
    | .nil => true
    | _ => false
  enc d := some (d.enc short)
  dec _ j := Dyn.dec j

/-! ### `time.Time` -/

/-- A date, a time of day and a time zone offset in minutes (simplification: no seconds in offsets; a Go `Time` with the
same fields). Go library time, for tilejson/tilejson.go:70, 74 and client/types.go:8, 10. -/
structure Time where
  year : Nat
  month : Nat
  day : Nat
  hour : Nat
  min : Nat
  sec : Nat
  nano : Nat
  off : Int
deriving DecidableEq, Repr

/-- The zero `Time`. Go library time. -/
def Time.zero : Time := ⟨1, 1, 1, 0, 0, 0, 0, 0⟩

/-- Drop the zeros at the end. Go library time (appendNano). -/
def trimZeros (l : Str) : Str := (l.reverse.dropWhile (· == '0')).reverse

/-- The fraction of a second: nothing for 0, else a point and up to nine digits. Go library time (appendNano). -/
def fracText (nano : Nat) : Str :=
  if nano = 0 then [] else '.' :: trimZeros (digitsPad 9 nano)

/-- The offset: `Z`, or sign, hours and minutes. Go library time (appendFormatRFC3339). -/
def zoneText (off : Int) : Str :=
  if off = 0 then ['Z']
  else (if off < 0 then '-' else '+') :: (digitsPad 2 (off.natAbs / 60) ++ ':' :: digitsPad 2 (off.natAbs % 60))

/-- `Time.MarshalJSON`: RFC 3339 with nanoseconds; an error for years beyond 9999 and offsets of a day and more.
Go library time (appendStrictRFC3339), for tilejson/tilejson.go:70, 74. -/
def Time.text (t : Time) : Option Str :=
  if 9999 < t.year ∨ 24 ≤ t.off.natAbs / 60 then none
  else some (digitsPad 4 t.year ++ '-' :: digitsPad 2 t.month ++ '-' :: digitsPad 2 t.day ++ 'T' :: digitsPad 2 t.hour ++
    ':' :: digitsPad 2 t.min ++ ':' :: digitsPad 2 t.sec ++ fracText t.nano ++ zoneText t.off)

/-- Read exactly `n` digits. Go library time (parseUint in parseRFC3339). -/
def takeNum (n : Nat) (s : Str) : Option (Nat × Str) :=
  if (s.take n).length = n ∧ (s.take n).all (·.isDigit) then some (digitsVal (s.take n), s.drop n) else none

/-- Read one given character. Go library time (parseRFC3339). -/
def takeChar (ch : Char) : Str → Option Str
  | [] => none
  | x :: r => if x = ch then some r else none

/-- Days of a month. Go library time (daysIn). -/
def daysIn (month year : Nat) : Nat :=
  if month = 2 then (if (year % 4 = 0 ∧ year % 100 ≠ 0) ∨ year % 400 = 0 then 29 else 28)
  else if month = 4 ∨ month = 6 ∨ month = 9 ∨ month = 11 then 30 else 31

/-- `commaOrPeriod`. Go library time. -/
def isPoint (ch : Char) : Bool := ch == '.' || ch == ','

/-- The fraction: `.` or `,` and at least one digit; digits beyond the ninth are dropped. Go library time (Parse,
parseNanoseconds). -/
def takeFrac (s : Str) : Nat × Str :=
  match s with
  | ch :: r =>
    let d := spanDigits r
    if isPoint ch = false ∨ d.1 = [] then (0, s) else (digitsVal ((d.1 ++ List.replicate 9 '0').take 9), d.2)
  | [] => (0, s)

/-- The hour: two digits, or one that is not followed by a digit. Go library time (getnum in Parse). -/
def takeHour (s : Str) : Option (Nat × Str) :=
  match takeNum 2 s with
  | some r => some r
  | none => takeNum 1 s

/-- The offset: up to 24 hours and 60 minutes. Go library time (Parse). -/
def parseZone : Str → Option Int
  | ['Z'] => some 0
  | sg :: r =>
    match takeNum 2 r with
    | none => none
    | some (hr, r) =>
      match takeChar ':' r with
      | none => none
      | some r =>
        match takeNum 2 r with
        | none => none
        | some (mm, r) =>
          if r = [] ∧ hr ≤ 24 ∧ mm ≤ 60 ∧ (sg = '-' ∨ sg = '+') then
            some (if sg = '-' then -((hr * 60 + mm : Nat) : Int) else ((hr * 60 + mm : Nat) : Int))
          else none
  | [] => none

/-- A number of `n` digits followed by a separator. Go library time (parseRFC3339). -/
def takeField (n : Nat) (sep : Char) (s : Str) : Option (Nat × Str) :=
  match takeNum n s with
  | none => none
  | some (v, r) =>
    match takeChar sep r with
    | none => none
    | some r => some (v, r)

/-- `Time.UnmarshalJSON` of a string: `parseRFC3339`, and where that refuses `Parse` with the layout RFC3339, which also
takes hours of one digit, a comma before the fraction and offsets up to 24:60. Simplification: the text between the quotation
marks is taken as it is, which is also its value when it has no escapes (with escapes Go refuses it).
Go library time (parseStrictRFC3339 of Go 1.20 and later), for tilejson/tilejson.go:70, 74. -/
def parseTime (s : Str) : Option Time :=
  match takeField 4 '-' s with
  | none => none
  | some (year, s) =>
  match takeField 2 '-' s with
  | none => none
  | some (month, s) =>
  match takeField 2 'T' s with
  | none => none
  | some (day, s) =>
  match takeHour s with
  | none => none
  | some (hour, s) =>
  match takeChar ':' s with
  | none => none
  | some s =>
  match takeField 2 ':' s with
  | none => none
  | some (min, s) =>
  match takeNum 2 s with
  | none => none
  | some (sec, s) =>
    if 1 ≤ month ∧ month ≤ 12 ∧ 1 ≤ day ∧ day ≤ daysIn month year ∧ hour ≤ 23 ∧ min ≤ 59 ∧ sec ≤ 59 then
      match parseZone (takeFrac s).2 with
      | none => none
      | some off => some ⟨year, month, day, hour, min, sec, (takeFrac s).1, off⟩
    else none

/-- `time.Time`: never empty; a text that is no time leaves the zero time. Go library time, for tilejson/tilejson.go:70,
74 and client/types.go:8, 10. -/
def timeC : Codec Time where
  zero := Time.zero
  empty _ := false
  enc t := t.text.map .str
  dec old
    | .str s =>
      match parseTime s with
      | some t => (t, true)
      | none => (Time.zero, false)
    | .null => (old, true)
    | _ => (old, false)

/-! ### The types of the package -/

/-- `VectorLayer` (tilejson/tilejson.go:103-115). -/
structure VectorLayer where
  version : Int
  extent : Int
  id : Str
  source : Str
  name : Str
  fields : Option (List (Str × Str))
  featureTags : Option (List Str)
  geometryType : Str
  minZoom : Nat
  maxZoom : Nat
  tiles : Option (List Str)
deriving DecidableEq, Repr

/-- tilejson/tilejson.go:103-115 -/
def vectorLayerR : Rec (Int × Int × Str × Str × Str × Option (List (Str × Str)) × Option (List Str) × Str × Nat × Nat ×
    Option (List Str) × Unit) :=
  .cons "version".toList false intC <|
  .cons "extent".toList false intC <|
  .cons "id".toList false strC <|
  .cons "source".toList false strC <|
  .cons "source_name".toList false strC <|
  .cons "fields".toList false (mapC strC) <|
  .cons "feature_tags".toList true (sliceC strC) <|
  .cons "geometry_type".toList true strC <|
  .cons "minzoom".toList false (uintC 64) <|
  .cons "maxzoom".toList false (uintC 64) <|
  .cons "tiles".toList false (sliceC strC) .nil

/-- tilejson/tilejson.go:103-115 -/
def vectorLayerC : Codec VectorLayer := (structC vectorLayerR).iso
  (fun v => (v.version, v.extent, v.id, v.source, v.name, v.fields, v.featureTags, v.geometryType, v.minZoom, v.maxZoom,
    v.tiles, ()))
  (fun (a, b, c, d, e, f, g, h, i, j, k, _) => ⟨a, b, c, d, e, f, g, h, i, j, k⟩)

/-- `TileJSON` (tilejson/tilejson.go:80-101). -/
structure TileJSON where
  id : Str
  attribution : Option Str
  bounds : List ℚ
  center : List ℚ
  format : Str
  minZoom : Nat
  maxZoom : Nat
  name : Option Str
  description : Option Str
  scheme : Str
  tileJSON : Str
  tiles : Option (List Str)
  grids : Option (List Str)
  data : Option (List Str)
  version : Str
  template : Option Str
  legend : Option Str
  vectorLayers : Option (List VectorLayer)
  type : Str
  tileSize : Nat
deriving DecidableEq, Repr

/-- tilejson/tilejson.go:80-101 -/
def tileJSONR (short : ℚ → Str) : Rec (Str × Option Str × List ℚ × List ℚ × Str × Nat × Nat × Option Str × Option Str × Str ×
    Str × Option (List Str) × Option (List Str) × Option (List Str) × Str × Option Str × Option Str ×
    Option (List VectorLayer) × Str × Nat × Unit) :=
  .cons "id".toList false strC <|
  .cons "attribution".toList false (ptrC strC) <|
  .cons "bounds".toList false (arrayC 4 (floatC short)) <|
  .cons "center".toList false (arrayC 3 (floatC short)) <|
  .cons "format".toList false strC <|
  .cons "minzoom".toList false (uintC 64) <|
  .cons "maxzoom".toList false (uintC 64) <|
  .cons "name".toList false (ptrC strC) <|
  .cons "description".toList false (ptrC strC) <|
  .cons "scheme".toList false strC <|
  .cons "tilejson".toList false strC <|
  .cons "tiles".toList false (sliceC strC) <|
  .cons "grids".toList false (sliceC strC) <|
  .cons "data".toList false (sliceC strC) <|
  .cons "version".toList false strC <|
  .cons "template".toList false (ptrC strC) <|
  .cons "legend".toList false (ptrC strC) <|
  .cons "vector_layers".toList true (sliceC vectorLayerC) <|
  .cons "type".toList false strC <|
  .cons "tileSize".toList false (uintC 32) .nil

/-- tilejson/tilejson.go:80-101 -/
def tileJSONC (short : ℚ → Str) : Codec TileJSON := (structC (tileJSONR short)).iso
  (fun t => (t.id, t.attribution, t.bounds, t.center, t.format, t.minZoom, t.maxZoom, t.name, t.description, t.scheme,
    t.tileJSON, t.tiles, t.grids, t.data, t.version, t.template, t.legend, t.vectorLayers, t.type, t.tileSize, ()))
  (fun (a, b, c, d, e, f, g, h, i, j, k, l, m, n, o, p, q, r, s, t, _) =>
    ⟨a, b, c, d, e, f, g, h, i, j, k, l, m, n, o, p, q, r, s, t⟩)

/-- `Tileset` (tilejson/tilejson.go:67-78). -/
structure Tileset where
  type : Str
  center : List ℚ
  created : Time
  description : Str
  filesize : Int
  id : Str
  modified : Time
  name : Str
  visibility : Str
  status : Str
deriving DecidableEq, Repr

/-- tilejson/tilejson.go:67-78 -/
def tilesetR (short : ℚ → Str) : Rec (Str × List ℚ × Time × Str × Int × Str × Time × Str × Str × Str × Unit) :=
  .cons "type".toList true strC <|
  .cons "center".toList true (arrayC 3 (floatC short)) <|
  .cons "created".toList true timeC <|
  .cons "description".toList true strC <|
  .cons "filesize".toList true intC <|
  .cons "id".toList true strC <|
  .cons "modified".toList true timeC <|
  .cons "name".toList true strC <|
  .cons "visibility".toList true strC <|
  .cons "status".toList true strC .nil

/-- tilejson/tilejson.go:67-78 -/
def tilesetC (short : ℚ → Str) : Codec Tileset := (structC (tilesetR short)).iso
  (fun t => (t.type, t.center, t.created, t.description, t.filesize, t.id, t.modified, t.name, t.visibility, t.status, ()))
  (fun (a, b, c, d, e, f, g, h, i, j, _) => ⟨a, b, c, d, e, f, g, h, i, j⟩)

/-- `ListStyle` (client/types.go:5-12). -/
structure ListStyle where
  version : Int
  name : Str
  created : Time
  id : Str
  modified : Time
  owner : Str
deriving DecidableEq, Repr

/-- client/types.go:5-12 -/
def listStyleR : Rec (Int × Str × Time × Str × Time × Str × Unit) :=
  .cons "version".toList true intC <|
  .cons "name".toList true strC <|
  .cons "created".toList true timeC <|
  .cons "id".toList true strC <|
  .cons "modified".toList true timeC <|
  .cons "owner".toList true strC .nil

/-- client/types.go:5-12 -/
def listStyleC : Codec ListStyle := (structC listStyleR).iso
  (fun t => (t.version, t.name, t.created, t.id, t.modified, t.owner, ()))
  (fun (a, b, c, d, e, f, _) => ⟨a, b, c, d, e, f⟩)

/-- `recipe.Layer` (recipe/recipe.go:8-12). -/
structure RecipeLayer where
  source : Str
  minZoom : Nat
  maxZoom : Nat
deriving DecidableEq, Repr

/-- recipe/recipe.go:8-12 -/
def recipeLayerR : Rec (Str × Nat × Nat × Unit) :=
  .cons "source".toList false strC <|
  .cons "minzoom".toList false (uintC 64) <|
  .cons "maxzoom".toList false (uintC 64) .nil

/-- recipe/recipe.go:8-12 -/
def recipeLayerC : Codec RecipeLayer := (structC recipeLayerR).iso
  (fun t => (t.source, t.minZoom, t.maxZoom, ())) (fun (a, b, c, _) => ⟨a, b, c⟩)

/-- `Recipe` (recipe/recipe.go:3-6). -/
structure Recipe where
  version : Int
  layers : Option (List (Str × RecipeLayer))
deriving DecidableEq, Repr

/-- recipe/recipe.go:3-6 -/
def recipeR : Rec (Int × Option (List (Str × RecipeLayer)) × Unit) :=
  .cons "version".toList false intC <|
  .cons "layers".toList false (mapC recipeLayerC) .nil

/-- recipe/recipe.go:3-6 -/
def recipeC : Codec Recipe := (structC recipeR).iso (fun t => (t.version, t.layers, ())) (fun (a, b, _) => ⟨a, b⟩)

/-- `CodePoints` (font/cover.go:33-38). -/
structure CodePoints where
  exemplar : Option (List Nat)
  auxiliary : Option (List Nat)
  index : Option (List Nat)
  punctuation : Option (List Nat)
deriving DecidableEq, Repr

/-- font/cover.go:33-38 -/
def codePointsR : Rec (Option (List Nat) × Option (List Nat) × Option (List Nat) × Option (List Nat) × Unit) :=
  .cons "exemplarCharacters".toList false (sliceC (uintC 32)) <|
  .cons "auxiliary".toList false (sliceC (uintC 32)) <|
  .cons "index".toList false (sliceC (uintC 32)) <|
  .cons "punctuation".toList false (sliceC (uintC 32)) .nil

/-- font/cover.go:33-38 -/
def codePointsC : Codec CodePoints := (structC codePointsR).iso
  (fun t => (t.exemplar, t.auxiliary, t.index, t.punctuation, ())) (fun (a, b, c, d, _) => ⟨a, b, c, d⟩)

/-- `LanguageCodePoints` (font/cover.go:40-44). -/
structure Language where
  id : Str
  name : Str
  codepoints : CodePoints
deriving DecidableEq, Repr

/-- font/cover.go:40-44 -/
def languageR : Rec (Str × Str × CodePoints × Unit) :=
  .cons "id".toList false strC <|
  .cons "name".toList false strC <|
  .cons "codepoints".toList false codePointsC .nil

/-- font/cover.go:40-44 -/
def languageC : Codec Language := (structC languageR).iso
  (fun t => (t.id, t.name, t.codepoints, ())) (fun (a, b, c, _) => ⟨a, b, c⟩)

/-- `NewFontCoverage` (font/cover.go:110-121): the languages, nil pointers included; `none` is an error. -/
def newFontCoverage (j : J) : Option (Option (List (Option Language))) :=
  let r := (sliceC (ptrC languageC)).dec none j
  if r.2 then some r.1 else none

/-- `LanguageCoverage` (font/cover.go:25-31). -/
structure LanguageCoverage where
  name : Str
  id : Str
  total : Int
  count : Int
  coverages : Option (List Int)
deriving DecidableEq, Repr

/-- font/cover.go:25-31 -/
def coverageR : Rec (Str × Str × Int × Int × Option (List Int) × Unit) :=
  .cons "name".toList false strC <|
  .cons "id".toList false strC <|
  .cons "total".toList false intC <|
  .cons "count".toList false intC <|
  .cons "coverages".toList false (sliceC intC) .nil

/-- font/cover.go:25-31 -/
def coverageC : Codec LanguageCoverage := (structC coverageR).iso
  (fun t => (t.name, t.id, t.total, t.count, t.coverages, ())) (fun (a, b, c, d, e, _) => ⟨a, b, c, d, e⟩)

/-- `mbtiles.VectorLayer` (mbtiles/metadata.go:101-107). -/
structure MbLayer where
  id : Str
  fields : Option (List (Str × Dyn))
  description : Str
  minZoom : Int
  maxZoom : Int

/-- mbtiles/metadata.go:101-107 -/
def mbLayerR (short : ℚ → Str) : Rec (Str × Option (List (Str × Dyn)) × Str × Int × Int × Unit) :=
  .cons "id".toList false strC <|
  .cons "fields".toList false (mapC (anyC short)) <|
  .cons "description".toList true strC <|
  .cons "minzoom".toList true intC <|
  .cons "maxzoom".toList true intC .nil

/-- mbtiles/metadata.go:101-107 -/
def mbLayerC (short : ℚ → Str) : Codec MbLayer := (structC (mbLayerR short)).iso
  (fun t => (t.id, t.fields, t.description, t.minZoom, t.maxZoom, ())) (fun (a, b, c, d, e, _) => ⟨a, b, c, d, e⟩)

/-- `Attribute` (mbtiles/metadata.go:122-127). -/
structure Attribute where
  name : Str
  count : Int
  type : Str
  values : Option (List Dyn)

/-- mbtiles/metadata.go:122-127 -/
def attributeR (short : ℚ → Str) : Rec (Str × Int × Str × Option (List Dyn) × Unit) :=
  .cons "attribute".toList false strC <|
  .cons "count".toList false intC <|
  .cons "type".toList false strC <|
  .cons "values".toList false (sliceC (anyC short)) .nil

/-- mbtiles/metadata.go:122-127 -/
def attributeC (short : ℚ → Str) : Codec Attribute := (structC (attributeR short)).iso
  (fun t => (t.name, t.count, t.type, t.values, ())) (fun (a, b, c, d, _) => ⟨a, b, c, d⟩)

/-- `Layer` (mbtiles/metadata.go:114-120). -/
structure StatLayer where
  name : Str
  count : Int
  geometry : Str
  attributeCount : Int
  attributes : Option (List Attribute)

/-- mbtiles/metadata.go:114-120 -/
def statLayerR (short : ℚ → Str) : Rec (Str × Int × Str × Int × Option (List Attribute) × Unit) :=
  .cons "layer".toList false strC <|
  .cons "count".toList false intC <|
  .cons "geometry".toList false strC <|
  .cons "attributeCount".toList false intC <|
  .cons "attributes".toList true (sliceC (attributeC short)) .nil

/-- mbtiles/metadata.go:114-120 -/
def statLayerC (short : ℚ → Str) : Codec StatLayer := (structC (statLayerR short)).iso
  (fun t => (t.name, t.count, t.geometry, t.attributeCount, t.attributes, ())) (fun (a, b, c, d, e, _) => ⟨a, b, c, d, e⟩)

/-- `TileStats` (mbtiles/metadata.go:109-112). -/
structure TileStats where
  layerCount : Int
  layers : Option (List StatLayer)

/-- mbtiles/metadata.go:109-112 -/
def tileStatsR (short : ℚ → Str) : Rec (Int × Option (List StatLayer) × Unit) :=
  .cons "layerCount".toList false intC <|
  .cons "layers".toList false (sliceC (statLayerC short)) .nil

/-- mbtiles/metadata.go:109-112 -/
def tileStatsC (short : ℚ → Str) : Codec TileStats := (structC (tileStatsR short)).iso
  (fun t => (t.layerCount, t.layers, ())) (fun (a, b, _) => ⟨a, b⟩)

/-- `LayerData` (mbtiles/metadata.go:96-99). -/
structure LayerData where
  vectorLayers : Option (Option (List MbLayer))
  tileStats : Option TileStats

/-- mbtiles/metadata.go:96-99 -/
def layerDataR (short : ℚ → Str) : Rec (Option (Option (List MbLayer)) × Option TileStats × Unit) :=
  .cons "vector_layers".toList true (ptrC (sliceC (mbLayerC short))) <|
  .cons "tilestats".toList true (ptrC (tileStatsC short)) .nil

/-- mbtiles/metadata.go:96-99 -/
def layerDataC (short : ℚ → Str) : Codec LayerData := (structC (layerDataR short)).iso
  (fun t => (t.vectorLayers, t.tileStats, ())) (fun (a, b, _) => ⟨a, b⟩)

/-- `layerTypeStrings` (mbtiles/mbtiles.go:105-108). -/
def layerTypeStrings : List Str := ["baselayer".toList, "overlay".toList]

/-- The loop of `LayerType.UnmarshalJSON` (mbtiles/mbtiles.go:126-131). -/
def layerTypeIndex (s : Str) : Option Int :=
  match layerTypeStrings.findIdx? (· == s) with
  | some i => some i
  | none => none

/-- `LayerType` (mbtiles/mbtiles.go:98-134).  `MarshalJSON` has a pointer receiver, so it is used only when the value is
addressable (`addr`); otherwise the number is written.  `UnmarshalJSON` also gets `null`, which is no known type. -/
def layerTypeC (addr : Bool) : Codec Int where
  zero := 0
  empty n := n == 0
  enc n :=
    if addr then (if n < 0 then none else (layerTypeStrings[n.toNat]?).map .str)
    else some (.num (itoa n))
  dec old
    | .str s =>
      match layerTypeIndex s with
      | some i => (i, true)
      | none => (old, false)
    | _ => (old, false)

/-- `Metadata` (mbtiles/metadata.go:28-46). -/
structure Metadata where
  name : Str
  format : Nat
  bounds : List ℚ
  center : List ℚ
  minZoom : Int
  maxZoom : Int
  description : Str
  version : Str
  type : Int
  attribution : Str
  layerData : Option LayerData
  directoryLayout : Str
  origin : Str
  srs : Str
  boundsSrs : Str
  resFactor : Dyn
  tileSize : Option (List Int)

/-- mbtiles/metadata.go:28-46 -/
def metadataR (short : ℚ → Str) (addr : Bool) : Rec (Str × Nat × List ℚ × List ℚ × Int × Int × Str × Str × Int × Str ×
    Option LayerData × Str × Str × Str × Str × Dyn × Option (List Int) × Unit) :=
  .cons "name".toList false strC <|
  .cons "format".toList false (uintC 8) <|
  .cons "bounds".toList true (arrayC 4 (floatC short)) <|
  .cons "center".toList true (arrayC 3 (floatC short)) <|
  .cons "minzoom".toList true intC <|
  .cons "maxzoom".toList true intC <|
  .cons "description".toList true strC <|
  .cons "version".toList true strC <|
  .cons "type".toList true (layerTypeC addr) <|
  .cons "attribution".toList true strC <|
  .cons "json".toList true (ptrC (layerDataC short)) <|
  .cons "directory_layout".toList true strC <|
  .cons "origin".toList true strC <|
  .cons "srs".toList true strC <|
  .cons "bounds_srs".toList true strC <|
  .cons "res_factor".toList true (anyC short) <|
  .cons "tile_size".toList true (ptrC (arrayC 2 intC)) .nil

/-- mbtiles/metadata.go:28-46 -/
def metadataC (short : ℚ → Str) (addr : Bool) : Codec Metadata := (structC (metadataR short addr)).iso
  (fun t => (t.name, t.format, t.bounds, t.center, t.minZoom, t.maxZoom, t.description, t.version, t.type, t.attribution,
    t.layerData, t.directoryLayout, t.origin, t.srs, t.boundsSrs, t.resFactor, t.tileSize, ()))
  (fun (a, b, c, d, e, f, g, h, i, j, k, l, m, n, o, p, q, _) => ⟨a, b, c, d, e, f, g, h, i, j, k, l, m, n, o, p, q⟩)

/-- `json.Marshal`; `none` is an error. Go library encoding/json. -/
def Codec.write {α : Type} (c : Codec α) (v : α) : Option J := c.enc v

/-- Decoding a document into a new variable, as `Client.do` (client/client.go:55-58) and `GetMetadata`
(mbtiles/mbtiles.go:409) use it: `none` is an error. -/
def Codec.read {α : Type} (c : Codec α) (j : J) : Option α :=
  let r := c.dec c.zero j
  if r.2 then some r.1 else none

/-- `GetTileJSON` (client/client.go:174-188) given the document of the answer: the value and whether there was no error. -/
def getTileJSON (short : ℚ → Str) (j : J) : TileJSON × Bool :=
  match (tileJSONC short).read j with
  | some t => (t, true)
  | none => ((tileJSONC short).zero, false)

/-- One page of `ListTilesets` (client/client.go:158-165). -/
def tilesetPage (short : ℚ → Str) (j : J) : Option (Option (List Tileset)) := (sliceC (tilesetC short)).read j

/-- One page of `ListStyles` (client/client.go:102-113). -/
def stylePage (j : J) : Option (Option (List ListStyle)) := (sliceC listStyleC).read j

end Verif.Doc
