import Verif.Model.Doc

/-!
# UTF-8 as Go reads and writes it

encoding/json works on bytes. Inside a string a byte that begins no UTF-8 sequence counts as U+FFFD; outside strings every byte
from 0x80 on is an error, as every character from U+0080 on is. So reading bytes is reading the characters `text` gives. Not code of /repo; part of the trusted base.
-/
namespace Verif.Utf8

open Verif.Doc

/-- `utf8.DecodeRune`: the character and how many bytes it takes. Go library unicode/utf8, in encoding/json (unquoteBytes), for
client/client.go:55, mbtiles/mbtiles.go:323, 352, style/style.go:65 and font/cover.go:114. -/
def rune : List Nat → Nat × Nat
  | [] => (0xFFFD, 0)
  | b0 :: t =>
    if b0 < 0x80 then (b0, 1)
    else if b0 < 0xC2 ∨ 0xF4 < b0 then (0xFFFD, 1)
    else
      match t with
      | [] => (0xFFFD, 1)
      | b1 :: t =>
        if b1 < (if b0 = 0xE0 then 0xA0 else if b0 = 0xF0 then 0x90 else 0x80) ∨
            (if b0 = 0xED then 0x9F else if b0 = 0xF4 then 0x8F else 0xBF) < b1 then (0xFFFD, 1)
        else if b0 < 0xE0 then (b0 % 32 * 64 + b1 % 64, 2)
        else
          match t with
          | [] => (0xFFFD, 1)
          | b2 :: t =>
            if b2 < 0x80 ∨ 0xBF < b2 then (0xFFFD, 1)
            else if b0 < 0xF0 then (b0 % 16 * 4096 + b1 % 64 * 64 + b2 % 64, 3)
            else
              match t with
              | [] => (0xFFFD, 1)
              | b3 :: _ =>
                if b3 < 0x80 ∨ 0xBF < b3 then (0xFFFD, 1)
                else (b0 % 8 * 262144 + b1 % 64 * 4096 + b2 % 64 * 64 + b3 % 64, 4)

/-- The characters of at most `n` steps. Go library encoding/json (unquoteBytes), for client/client.go:55. -/
def runes : Nat → List Nat → Str
  | 0, _ => []
  | n + 1, p =>
    match p with
    | [] => []
    | _ :: _ => Char.ofNat (rune p).1 :: runes n (p.drop (rune p).2)

/-- The characters of some bytes. Go library encoding/json (unquoteBytes), for client/client.go:55. -/
def text (p : List Nat) : Str := runes p.length p

/-- `utf8.AppendRune`. Go library unicode/utf8, in encoding/json (appendString), for mbtiles/mbtiles.go:361. -/
def charBytes (c : Char) : List Nat :=
  if c.toNat < 0x80 then [c.toNat]
  else if c.toNat < 0x800 then [0xC0 + c.toNat / 64, 0x80 + c.toNat % 64]
  else if c.toNat < 0x10000 then [0xE0 + c.toNat / 4096, 0x80 + c.toNat / 64 % 64, 0x80 + c.toNat % 64]
  else [0xF0 + c.toNat / 262144, 0x80 + c.toNat / 4096 % 64, 0x80 + c.toNat / 64 % 64, 0x80 + c.toNat % 64]

/-- The bytes of a text. Go library encoding/json (appendString), for mbtiles/mbtiles.go:361. -/
def bytes (s : Str) : List Nat := s.flatMap charBytes

end Verif.Utf8
