import Verif.Model.Client
import Verif.Model.JsonBytes
import Verif.Model.GoBase

/-!
# Model of whole calls of client/client.go: from the arguments to the requests, and from the bytes of the answers to the results

Simplifications: `url.Parse` of next pages is a parameter as in Model/Client (the real one is in Model/UrlParse); fragments of their addresses, which are not sent, are dropped; a
failure to build a request counts as a failure of the network.
-/
namespace Verif.Client

open Verif.Doc

/-! ## Addresses -/

/-- bytes that `URL.EscapedPath` leaves alone (`shouldEscape`, mode encodePath). Go library net/url, reached from client/client.go:44
(`url.String()`). -/
def pathByte (b : Byte) : Bool :=
  unreserved b || b.val == 36 || b.val == 38 || b.val == 43 || b.val == 44 || b.val == 47 || b.val == 58 || b.val == 59 || b.val == 61 ||
  b.val == 64

/-- one byte of an escaped path. Go library net/url, reached from client/client.go:44 (`url.String()`). -/
def escPathByte (b : Byte) : Bytes := if pathByte b then [b] else [37, hexDigit (b.val / 16), hexDigit (b.val % 16)]

/-- `URL.EscapedPath` of a path that was set by hand. Go library net/url, reached from client/client.go:44 (`url.String()`). -/
def escapedPath (p : Bytes) : Bytes := if p = lit "*" then p else p.flatMap escPathByte

/-- The address of a path of the API, up to the query: `NewClient`'s base (client/client.go:28) with the path (client/client.go:87-88,
120-124, 137-138, 177-178). `URL.String` puts a slash before a path without one. -/
def address (path : Bytes) : Bytes := lit "https://api.mapbox.com/" ++ escapedPath path

/-- `url.String()` (client/client.go:44). Go library net/url. -/
def Url.print (u : Url) : Bytes := if u.rawQuery = [] then u.base else u.base ++ (63 : Byte) :: u.rawQuery

/-! ## Answers -/

/-- An answer: status, `header.Get("Link")` and the body. client/client.go:49-60. -/
structure Response where
  status : Nat
  link : Bytes
  body : List Nat

/-- The network: all requests so far, the current one last, to the answer; `none` is an error of the transport. client/client.go:49. -/
abbrev Net := List Url → Option Response

/-- `do` (client/client.go:42-61) for a list: the status is not looked at. -/
def reply {α : Type} (c : Codec (Option (List α))) : Option Response → Reply α
  | none => .failed
  | some r =>
    match JBytes.readBody c r.body with
    | none => .failed
    | some l => .ok (l.getD []) r.link

/-- `ListStyles` (client/client.go:85-116), at most `n` turns; with the requests made. -/
def listStyles (parse : Bytes → Option Url) (user token : Bytes) (net : Net) (draft : Bool) (n : Nat) : Outcome ListStyle × List Url :=
  listLoop parse token (fun h => reply (sliceC listStyleC) (net h)) n [] [] ⟨address (listStylesPath user), listStylesQuery draft⟩

/-- `ListTilesetsParams` (tilejson/tilejson.go:28-33). -/
structure ListTilesetsParams where
  type : Option Bytes
  visibility : Option Bytes
  sortBy : Option Bytes
  limit : Option Int

/-- `strconv.Itoa(*params.Limit)` (client/client.go:149-151). -/
def ListTilesetsParams.printed (p : ListTilesetsParams) : TilesetParams :=
  ⟨p.type, p.visibility, p.sortBy, p.limit.map fun n => (Go.itoa n).map fun c => Fin.ofNat 256 c.toNat⟩

/-- `ListTilesets` (client/client.go:136-172), at most `n` turns; with the requests made. -/
def listTilesets (short : ℚ → Str) (parse : Bytes → Option Url) (user token : Bytes) (net : Net) (p : ListTilesetsParams) (n : Nat) :
    Outcome Tileset × List Url :=
  listLoop parse token (fun h => reply (sliceC (tilesetC short)) (net h)) n [] [] ⟨address (listTilesetsPath user), listTilesetsQuery p.printed⟩

/-- The one request of `GetTileJSON` (client/client.go:175-182). -/
def tileJSONRequest (token : Bytes) (ids : List Bytes) : Url := addAuthentication token ⟨address (tileJSONPath ids), []⟩

/-- `GetTileJSON` (client/client.go:174-188): the value and whether there was no error. -/
def getTileJSON (short : ℚ → Str) (token : Bytes) (net : Net) (ids : List Bytes) : TileJSON × Bool :=
  match net [tileJSONRequest token ids] with
  | none => ((tileJSONC short).zero, false)
  | some r => JBytes.tileJSONBody short r.body

/-- The one request of `GetStyle` (client/client.go:120-128). -/
def styleRequest (user token id : Bytes) (draft : Bool) : Url := addAuthentication token ⟨address (getStylePath user id draft), []⟩

/-- `GetStyle` (client/client.go:118-134): the style, an error or a panic. -/
def getStyle (rnd : ℚ → ℚ) (imp : Nat) (user token : Bytes) (net : Net) (id : Bytes) (draft : Bool) : Except Style.Fail Style.StyleVal :=
  match net [styleRequest user token id draft] with
  | none => .error .err
  | some r =>
    match JText.decode (Utf8.text r.body) with
    | none => .error .err
    | some j => Style.decodeStyle rnd imp (Style.toJson j)

end Verif.Client
