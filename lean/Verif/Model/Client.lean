import Mathlib.Data.List.Sort
import Mathlib.Data.Fin.Basic

/-!
# Model of client/client.go

Strings are lists of bytes.  `net/url`'s query codec and `path.Join` are modelled as far as the client uses
them (Go standard library, not part of /repo); `url.Parse`, the transport and the JSON decoder are parameters.
A server answers depending on all requests made so far.
-/
namespace Verif.Client

/-- Go language, for client/client.go:63-188. -/
abbrev Byte := Fin 256
/-- Go language, for client/client.go:63-188. -/
abbrev Bytes := List Byte

/-- an ASCII literal. Go language (string literals), for client/client.go:63-188. -/
def lit (s : String) : Bytes := s.toList.map fun c => Fin.ofNat 256 c.toNat

/-! ## net/url -/

/-- bytes that `url.QueryEscape` leaves alone (`shouldEscape`, mode encodeQueryComponent)
Go library net/url, reached from client/client.go:66, 96, 152 (`q.Encode()`). -/
def unreserved (b : Byte) : Bool :=
  (97 ≤ b.val && b.val ≤ 122) || (65 ≤ b.val && b.val ≤ 90) || (48 ≤ b.val && b.val ≤ 57) ||
  b.val == 45 || b.val == 95 || b.val == 46 || b.val == 126

/-- Go library net/url, reached from client/client.go:66, 96, 152 (`q.Encode()`). -/
def hexDigit (n : Nat) : Byte := if n < 10 then Fin.ofNat 256 (48 + n) else Fin.ofNat 256 (55 + n)

/-- `url.QueryEscape` of one byte. Go library net/url, reached from client/client.go:66, 96, 152 (`q.Encode()`). -/
def escByte (b : Byte) : Bytes :=
  if unreserved b then [b] else if b.val = 32 then [43] else [37, hexDigit (b.val / 16), hexDigit (b.val % 16)]

/-- `url.QueryEscape`. Go library net/url, reached from client/client.go:66, 96, 152 (`q.Encode()`). -/
def escape (s : Bytes) : Bytes := s.flatMap escByte

/-- Go library net/url, reached from client/client.go:64, 89, 139 (`url.Query()`). -/
def unhex (b : Byte) : Option Nat :=
  if 48 ≤ b.val ∧ b.val ≤ 57 then some (b.val - 48)
  else if 97 ≤ b.val ∧ b.val ≤ 102 then some (b.val - 87)
  else if 65 ≤ b.val ∧ b.val ≤ 70 then some (b.val - 55)
  else none

/-- `url.QueryUnescape`; `none` is its error.
Go library net/url, reached from client/client.go:64, 89, 139 (`url.Query()`). -/
def unescape : Bytes → Option Bytes
  | [] => some []
  | b :: rest =>
    if b.val = 37 then
      match rest with
      | h :: l :: rest' =>
        match unhex h, unhex l with
        | some h, some l => (unescape rest').map (Fin.ofNat 256 (h * 16 + l) :: ·)
        | _, _ => none
      | _ => none
    else if b.val = 43 then (unescape rest).map (32 :: ·)
    else (unescape rest).map (b :: ·)

/-- `strings.Split` at one byte (`url.parseQuery` cuts repeatedly)
Go library net/url, reached from client/client.go:64, 89, 139 (`url.Query()`). -/
def splitAt (sep : Byte) : Bytes → List Bytes
  | [] => [[]]
  | b :: rest =>
    if b = sep then [] :: splitAt sep rest
    else match splitAt sep rest with
      | [] => [[b]]
      | p :: ps => (b :: p) :: ps

/-- `strings.Cut` at one byte: without the separator the second part is empty.
Go library net/url, reached from client/client.go:64, 89, 139 (`url.Query()`). -/
def cut (sep : Byte) (s : Bytes) : Bytes × Bytes :=
  (s.takeWhile (· ≠ sep), (s.dropWhile (· ≠ sep)).tail)

/-- `url.Values`: a map from keys to lists of values, as an association list with distinct keys.
Go library net/url, used at client/client.go:64-66, 89-96, 139-152. -/
abbrev Values := List (Bytes × List Bytes)

/-- `v[key]`. Go library net/url, used at client/client.go:64-66, 89-96, 139-152. -/
def Values.get (q : Values) (k : Bytes) : List Bytes :=
  match q.find? (fun e => e.1 = k) with
  | some e => e.2
  | none => []

/-- `Values.Add`. Go library net/url, used at client/client.go:64-66, 89-96, 139-152. -/
def Values.add : Values → Bytes → Bytes → Values
  | [], k, v => [(k, [v])]
  | e :: q, k, v => if e.1 = k then (e.1, e.2 ++ [v]) :: q else e :: Values.add q k v

/-- one `key=value` part of a query (`url.parseQuery`): parts with a semicolon, empty parts and parts that do not
unescape are skipped. Go library net/url, reached from client/client.go:64, 89, 139 (`url.Query()`). -/
def parsePart (p : Bytes) : Option (Bytes × Bytes) :=
  if p.contains (59 : Byte) then none
  else if p = [] then none
  else match unescape (cut 61 p).1, unescape (cut 61 p).2 with
    | some k, some v => some (k, v)
    | _, _ => none

/-- `URL.Query()`: `parseQuery` with its error dropped.
Go library net/url, reached from client/client.go:64, 89, 139 (`url.Query()`). -/
def parseQuery (raw : Bytes) : Values :=
  ((splitAt 38 raw).filterMap parsePart).foldl (fun q e => q.add e.1 e.2) []

/-- the `key=value` pairs in the order `Values.Encode` writes them: keys sorted, values in order.
Go library net/url, called at client/client.go:66, 96, 152. -/
def Values.pairs (q : Values) : List (Bytes × Bytes) :=
  (q.mergeSort fun a b => !decide (b.1 < a.1)).flatMap fun e => e.2.map fun v => (e.1, v)

/-- `Values.Encode`. Go library net/url, called at client/client.go:66, 96, 152. -/
def Values.encode (q : Values) : Bytes :=
  List.intercalate [(38 : Byte)] (q.pairs.map fun e => escape e.1 ++ (61 : Byte) :: escape e.2)

/-- `url.URL` (everything before the query is kept in one part)
Go library net/url, used at client/client.go:22, 63-68. -/
structure Url where
  base : Bytes
  rawQuery : Bytes
deriving DecidableEq

/-! ## client.go -/

/-- `Client.addAuthentication` (client/client.go:63-68). -/
def addAuthentication (token : Bytes) (u : Url) : Url :=
  ⟨u.base, ((parseQuery u.rawQuery).add (lit "access_token") token).encode⟩

/-- what precedes the last `>`. Part of matching the regular expression at client/client.go:71. -/
def upToLast : Bytes → Option Bytes
  | [] => none
  | b :: rest =>
    match upToLast rest with
    | some r => some (b :: r)
    | none => if b.val = 62 then some [] else none

/-- group 1 of the first match of `<(.*)>` (client/client.go:71, 75): leftmost, then greedy; a dot is not a newline -/
def linkGroup : Bytes → Option Bytes
  | [] => none
  | b :: rest =>
    if b.val = 60 then
      match upToLast (rest.takeWhile (·.val ≠ 10)) with
      | some g => some g
      | none => linkGroup rest
    else linkGroup rest

/-- `strings.Contains`. Go library strings, called at client/client.go:74. -/
def containsSub (sub : Bytes) : Bytes → Bool
  | [] => sub.isEmpty
  | b :: rest => sub.isPrefixOf (b :: rest) || containsSub sub rest

/-- outcome of `nextPageURL`. client/client.go:70-83. -/
inductive Next
  | done
  | page (u : Url)
  | panic
deriving DecidableEq

/-- `Client.nextPageURL` (client/client.go:70-83); `link` is `header.Get("Link")`. -/
def nextPageURL (parse : Bytes → Option Url) (link : Bytes) : Next :=
  if containsSub (lit "next") link then
    match linkGroup link with
    | none => .panic
    | some g => match parse g with
      | none => .done
      | some u => .page u
  else .done

/-- What a request gets: a failure of the transport or the decoder, or a decoded page and the `Link` header.
Stands for what client/client.go:42-61 (`do`) sees of the network. -/
inductive Reply (α : Type)
  | failed
  | ok (page : List α) (link : Bytes)

/-- A server: the requests made so far (oldest first, the current one last) to a reply.
Stands for what client/client.go:42-61 (`do`) sees of the network. -/
abbrev Server (α : Type) := List Url → Reply α

/-- result of the loop. client/client.go:85-116, 136-172. -/
inductive Outcome (α : Type)
  | ok (l : List α)
  | error
  | panic
  | running
deriving DecidableEq

/-- The loop shared by `ListStyles` (client/client.go:98-115) and `ListTilesets` (client/client.go:154-171); the first argument
bounds the number of turns (`running` when it is used up), `all` is what was collected, `hist` the requests made.
`do` (client/client.go:42-61) adds the token and sends. -/
def listLoop {α : Type} (parse : Bytes → Option Url) (token : Bytes) (srv : Server α) :
    Nat → List α → List Url → Url → Outcome α × List Url
  | 0, _, hist, _ => (.running, hist)
  | n + 1, all, hist, u =>
    let hist' := hist ++ [addAuthentication token u]
    match srv hist' with
    | .failed => (.error, hist')
    | .ok page link =>
      match nextPageURL parse link with
      | .done => (.ok (all ++ page), hist')
      | .panic => (.panic, hist')
      | .page u' => listLoop parse token srv n (all ++ page) hist' u'

/-! ## path.Join -/

/-- one element of `path.Clean` of an unrooted path: the elements kept so far, last first.
Go library path, called at client/client.go:88, 121, 123, 138, 178. -/
def cleanStep (out : List Bytes) (e : Bytes) : List Bytes :=
  if e = [] ∨ e = lit "." then out
  else if e = lit ".." then
    match out with
    | [] => [e]
    | o :: os => if o = lit ".." then e :: o :: os else os
  else e :: out

/-- `path.Clean` of a path that does not begin with a slash.
Go library path, called at client/client.go:88, 121, 123, 138, 178. -/
def clean (p : Bytes) : Bytes :=
  let out := ((splitAt 47 p).foldl cleanStep []).reverse
  if out = [] then lit "." else List.intercalate [(47 : Byte)] out

/-- `path.Join` of elements the first non-empty of which does not begin with a slash.
Go library path, called at client/client.go:88, 121, 123, 138, 178. -/
def pathJoin (es : List Bytes) : Bytes :=
  let es := es.filter (· ≠ [])
  if es = [] then [] else clean (List.intercalate [(47 : Byte)] es)

/-- path of `ListStyles` (client/client.go:87-88) -/
def listStylesPath (user : Bytes) : Bytes := pathJoin [[], lit "styles/v1/", user]

/-- query of `ListStyles` (client/client.go:89-96) -/
def listStylesQuery (draft : Bool) : Bytes :=
  Values.encode (Values.add (Values.add (parseQuery []) (lit "draft") (if draft then lit "true" else lit "false"))
    (lit "fresh") (lit "true"))

/-- path of `GetStyle` (client/client.go:120-124) -/
def getStylePath (user id : Bytes) (draft : Bool) : Bytes :=
  let p := pathJoin [[], lit "styles/v1/", user, id]
  if draft then pathJoin [p, lit "draft"] else p

/-- path of `ListTilesets` (client/client.go:137-138) -/
def listTilesetsPath (user : Bytes) : Bytes := pathJoin [[], lit "tilesets/v1/", user]

/-- `ListTilesetsParams` (tilejson/tilejson.go:28-33); `limit` already printed by `strconv.Itoa`.
client/client.go:139-152. -/
structure TilesetParams where
  type : Option Bytes
  visibility : Option Bytes
  sortBy : Option Bytes
  limit : Option Bytes

/-- client/client.go:139-152. -/
def addOpt (q : Values) (k : Bytes) : Option Bytes → Values
  | none => q
  | some v => q.add k v

/-- query of `ListTilesets` (client/client.go:139-152) -/
def listTilesetsQuery (p : TilesetParams) : Bytes :=
  (addOpt (addOpt (addOpt (addOpt (parseQuery []) (lit "type") p.type) (lit "visibility") p.visibility)
    (lit "sortby") p.sortBy) (lit "limit") p.limit).encode

/-- path of `GetTileJSON` (client/client.go:175-178) -/
def tileJSONPath (ids : List Bytes) : Bytes :=
  pathJoin [[], lit "v4", List.intercalate [(44 : Byte)] ids] ++ lit ".json"

end Verif.Client
