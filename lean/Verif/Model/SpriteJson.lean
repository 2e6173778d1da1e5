import Verif.Model.Doc
import Verif.Model.Sprite

/-!
# The sprite index as JSON (sprite/sprite.go:108-126)

`GenerateSprite` returns a `map[string]*TextureSprite`; the program that serves a sprite writes it with encoding/json as the index file.
`TextureSprite` embeds `*TextureMeta`, so the fields of both are members of one object; `Name` and the images are tagged `-`.
-/
namespace Verif.Sprite
open Verif.Doc

/-- `TextureMeta` (sprite/sprite.go:120-126). -/
structure Meta where
  id : Option Str
  name : Str
  width : Int
  height : Int
  pixelRatio : Int
  deriving DecidableEq, Repr

/-- `TextureSprite` (sprite/sprite.go:108-114) without `OriginTextureMeta` and `Image`; `info` is the embedded pointer. -/
structure Entry where
  info : Option Meta
  x : Int
  y : Int
  deriving DecidableEq, Repr

/-- The zero `TextureMeta`. sprite/sprite.go:120-126. -/
def Meta.zero : Meta := ⟨none, [], 0, 0, 0⟩

/-- The fields of the embedded struct, then those of `TextureSprite` (sprite/sprite.go:108-126): encoding/json orders fields by index. -/
def entryR : Rec (Option Str × Int × Int × Int × Int × Int × Unit) :=
  .cons "id".toList true (ptrC strC) <| .cons "width".toList false intC <| .cons "height".toList false intC <|
  .cons "pixelRatio".toList false intC <| .cons "x".toList false intC <| .cons "y".toList false intC .nil

/-- The fields that are left when the embedded pointer is nil (sprite/sprite.go:110-111). -/
def placeR : Rec (Int × Int × Unit) := .cons "x".toList false intC <| .cons "y".toList false intC .nil

/-- Whether a member is one of the embedded struct: decoding it makes the embedded pointer point to a new struct if it is nil, whatever
the value. Go library encoding/json (decodeState.object), for sprite/sprite.go:109, 121-125. -/
def ofMeta (m : Str × J) : Bool :=
  ["id".toList, "width".toList, "height".toList, "pixelRatio".toList].any fun k => fold k == fold m.1

/-- `TextureSprite`. Go library encoding/json, for sprite/sprite.go:108-126. -/
def entryC : Codec Entry where
  zero := ⟨none, 0, 0⟩
  empty _ := false
  enc e :=
    match e.info with
    | none => (placeR.encAll (e.x, e.y, ())).map .obj
    | some m => (entryR.encAll (m.id, m.width, m.height, m.pixelRatio, e.x, e.y, ())).map .obj
  dec old
    | .null => (old, true)
    | .obj ms =>
      let m := old.info.getD .zero
      let r := entryR.members (m.id, m.width, m.height, m.pixelRatio, old.x, old.y, ()) ms
      match r with
      | ((i, w, h, p, x, y, _), ok) =>
        (⟨if old.info.isSome || ms.any ofMeta then some ⟨i, m.name, w, h, p⟩ else none, x, y⟩, ok)
    | _ => (old, false)

/-- `map[string]*TextureSprite` (sprite/sprite.go:13). Go library encoding/json. -/
def indexC : Codec (Option (List (Str × Option Entry))) := mapC (ptrC entryC)

/-- The entry of a sprite of the set that `GenerateSprite` returns; `id` is the texture's. sprite/sprite.go:25-37, 54-55. -/
def entryOf (id : String → Option Str) (k : String) (t : TexSprite) : Entry :=
  ⟨some ⟨id k, k.toList, t.width, t.height, t.pixelRatio⟩, t.x, t.y⟩

/-- The set `GenerateSprite` returns, with the names in order. sprite/sprite.go:13, 41. -/
def indexOf (id : String → Option Str) (set : SpriteMap) (names : List String) : List (Str × Option Entry) :=
  names.map fun k => (k.toList, (set k).map (entryOf id k))

end Verif.Sprite
