import Verif.Model.GoBase

/-!
# Model of `tileid/tileid.go`

`X`, `Y` are `int64`, `Z` is `uint64`; wrap-around is modelled where the code computes with them.
The lon/lat functions are in `Model/TileGeo.lean`.
-/
namespace Verif.Tid
open Verif.Go

/-- tileid/tileid.go:19-23 `TileID{X int64; Y int64; Z uint64}`. -/
structure TileID where
  X : Int
  Y : Int
  Z : Nat
  deriving DecidableEq, Repr

/-- Values a Go `TileID` can hold. tileid/tileid.go:19-23. -/
def TileID.Valid (t : TileID) : Prop := IsI64 t.X ∧ IsI64 t.Y ∧ IsU64 t.Z
instance (t : TileID) : Decidable t.Valid := by unfold TileID.Valid; infer_instance

/-- A tile of the world grid: `0 ≤ X, Y < 2^Z`. tileid/tileid.go:19-23. -/
def TileID.InGrid (t : TileID) : Prop := 0 ≤ t.X ∧ t.X < 2 ^ t.Z ∧ 0 ≤ t.Y ∧ t.Y < 2 ^ t.Z
instance (t : TileID) : Decidable t.InGrid := by unfold TileID.InGrid; infer_instance

/-- tileid/tileid.go:25-27 `ToString`. -/
def toStr (t : TileID) : List Char := itoa t.X ++ '.' :: itoa t.Y ++ '.' :: Nat.toDigits 10 t.Z

/-- tileid/tileid.go:70-73 `Tilestr`: decimal `X/Y/Z` after conversion of each field to `int`. -/
def tilestr (t : TileID) : List Char :=
  itoa (i64 t.X) ++ '/' :: itoa (i64 t.Y) ++ '/' :: itoa (i64 t.Z)

/-- tileid/tileid.go:107-110 `TilestrFile`: the same with `-` between the fields. -/
def tilestrFile (t : TileID) : List Char :=
  itoa (i64 t.X) ++ '-' :: itoa (i64 t.Y) ++ '-' :: itoa (i64 t.Z)

/-- Common tail of `Strtile`/`TileFromString` (tileid/tileid.go:78-81, 128-131): indexing a missing field panics
(`none`), parse errors are ignored. -/
def fromFields (vals : List (List Char)) : Option TileID :=
  match vals[0]?, vals[1]?, vals[2]? with
  | some a, some b, some c => some ⟨parseInt0 a, parseInt0 b, u64 (parseInt0 c)⟩
  | _, _, _ => none

/-- tileid/tileid.go:76-82 `Strtile`. -/
def strtile (s : List Char) : Option TileID := fromFields (split '/' s)

/-- tileid/tileid.go:114-132 `TileFromString`: the first delimiter of `- / _ , space` that occurs is used; without
any the field list is nil and indexing panics. -/
def tileFromString (val : List Char) : Option TileID :=
  let vals :=
    if '-' ∈ val then split '-' val
    else if '/' ∈ val then split '/' val
    else if '_' ∈ val then split '_' val
    else if ',' ∈ val then split ',' val
    else if ' ' ∈ val then split ' ' val
    else []
  fromFields vals

/-- tileid/tileid.go:85-91 `Children`, with int64/uint64 wrap-around. -/
def children (t : TileID) : List TileID :=
  [⟨i64 (t.X * 2), i64 (t.Y * 2), u64 (t.Z + 1)⟩,
   ⟨i64 (t.X * 2 + 1), i64 (t.Y * 2), u64 (t.Z + 1)⟩,
   ⟨i64 (t.X * 2 + 1), i64 (t.Y * 2 + 1), u64 (t.Z + 1)⟩,
   ⟨i64 (t.X * 2), i64 (t.Y * 2 + 1), u64 (t.Z + 1)⟩]

/-- tileid/tileid.go:150-152 `IsEqual`. -/
def isEqual (a b : TileID) : Bool :=
  i64 a.X == i64 b.X && i64 a.Y == i64 b.Y && i64 a.Z == i64 b.Z

/-- tileid/tileid.go:155-161 `reverse`: writes byte `i` to position `len-i-1`. -/
def reverse (val : List Char) : List Char :=
  (val.zipIdx).foldl (fun acc p => acc.set (val.length - p.2 - 1) p.1) val

/-- The test `int(v) & mask > 0` with `mask = int(1 << uint64(i-1))` (tileid/tileid.go:169-175) on 64-bit words. -/
def maskPos (v : Int) (i : Nat) : Bool :=
  decide (0 < ((BitVec.ofInt 64 v) &&& (1#64 <<< (i - 1))).toInt)

/-- One digit of the key (tileid/tileid.go:168-176). -/
def quadDigit (x y : Int) (i : Nat) : Nat :=
  (if maskPos x i then 1 else 0) + (if maskPos y i then 2 else 0)

/-- The loop `for i := z; i > 0; i--` of tileid/tileid.go:167-177. -/
def quadLoop (x y : Int) : Nat → List Char → List Char
  | 0, s => s
  | i + 1, s => quadLoop x y i (s ++ itoa (quadDigit x y (i + 1)))

/-- tileid/tileid.go:165-179 `QuadKey`. A `Z ≥ 2^63` is negative as `int`, so the loop does not run. -/
def quadKey (t : TileID) : List Char := quadLoop t.X t.Y (i64 t.Z).toNat []

/-- Loop body of tileid/tileid.go:187-199: state is `(xtile, ytile, outeri)`. -/
def quadStep (st : BitVec 64 × BitVec 64 × Nat) (p : Char × Nat) : BitVec 64 × BitVec 64 × Nat :=
  let mask : BitVec 64 := 1#64 <<< p.2
  let (x, y, _) := st
  if p.1 = '1' then (x ||| mask, y, p.2)
  else if p.1 = '2' then (x, y ||| mask, p.2)
  else if p.1 = '3' then (x ||| mask, y ||| mask, p.2)
  else (x, y, p.2)

/-- tileid/tileid.go:183-201 `QuadkeyToTile` (ASCII strings; other digits are treated as `0` as in the code). -/
def quadkeyToTile (quadkey : List Char) : TileID :=
  let (x, y, o) := ((reverse quadkey).zipIdx).foldl quadStep (0#64, 0#64, 0)
  ⟨x.toInt, y.toInt, o + 1⟩

end Verif.Tid
