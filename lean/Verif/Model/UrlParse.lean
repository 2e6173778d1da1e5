import Verif.Model.ClientSession

/-!
# `url.Parse` (Go library net/url), which client/client.go:28, 75 and `http.NewRequest` (client/client.go:44) call

An authority with user information, brackets or percent signs is left to a parameter that returns it as `String` prints it, or an error.
Simplifications: of a parsed address only what `String` prints of it is kept, without the fragment (which is not sent); the query is kept as
it stands, and a lone question mark (`ForceQuery`) is not, because the client adds a query to every address it sends.
-/
namespace Verif.Client

/-- `stringContainsCTLByte`. Go library net/url (parse), reached from client/client.go:75. -/
def hasCTL (s : Bytes) : Bool := s.any fun b => decide (b.val < 32) || b.val == 127

/-- A letter. Go library net/url (getScheme), reached from client/client.go:75. -/
def isLetter (b : Byte) : Bool := (97 ≤ b.val && b.val ≤ 122) || (65 ≤ b.val && b.val ≤ 90)

/-- A digit. Go library net/url (getScheme, validOptionalPort), reached from client/client.go:75. -/
def isDigit (b : Byte) : Bool := 48 ≤ b.val && b.val ≤ 57

/-- The loop of `getScheme` over the rest of an address that began with `acc`; `none` is its error. Go library net/url, reached from
client/client.go:75. -/
def schemeLoop (raw : Bytes) : Bytes → Bytes → Option (Bytes × Bytes)
  | _, [] => some ([], raw)
  | acc, b :: rest =>
    if isLetter b then schemeLoop raw (acc ++ [b]) rest
    else if isDigit b || b.val == 43 || b.val == 45 || b.val == 46 then
      if acc = [] then some ([], raw) else schemeLoop raw (acc ++ [b]) rest
    else if b.val = 58 then (if acc = [] then none else some (acc, rest))
    else some ([], raw)

/-- `getScheme`: the scheme and the rest. Go library net/url, reached from client/client.go:75. -/
def getScheme (raw : Bytes) : Option (Bytes × Bytes) := schemeLoop raw [] raw

/-- `strings.ToLower` of an ASCII text. Go library strings (called by net/url), reached from client/client.go:75. -/
def lower (s : Bytes) : Bytes := s.map fun b => if 65 ≤ b.val && b.val ≤ 90 then Fin.ofNat 256 (b.val + 32) else b

/-- `unescape` in the modes encodePath and encodeFragment; `none` is its error. Go library net/url, reached from client/client.go:75. -/
def unescapePath : Bytes → Option Bytes
  | [] => some []
  | b :: rest =>
    if b.val = 37 then
      match rest with
      | h :: l :: rest' =>
        match unhex h, unhex l with
        | some h, some l => (unescapePath rest').map (Fin.ofNat 256 (h * 16 + l) :: ·)
        | _, _ => none
      | _ => none
    else (unescapePath rest).map (b :: ·)

/-- `validEncoded`, mode encodePath. Go library net/url, reached from client/client.go:44 (`url.String()`). -/
def validEncoded (s : Bytes) : Bool :=
  s.all fun b => (lit "!$&'()*+,;=:@[]%").contains b || pathByte b

/-- `setPath` and `EscapedPath`: how the path `p` of an address is printed; `none` is an error of `setPath`. Go library net/url, reached from
client/client.go:44, 75. -/
def printPath (p : Bytes) : Option Bytes :=
  match unescapePath p with
  | none => none
  | some path => some (if path.flatMap escPathByte ≠ p ∧ p ≠ [] ∧ validEncoded p = true then p else escapedPath path)

/-- Bytes that may stand in a host unescaped (`shouldEscape`, mode encodeHost). Go library net/url, reached from client/client.go:44, 75. -/
def hostByte (b : Byte) : Bool := unreserved b || (lit "!$&'()*+,;=:[]<>\"").contains b

/-- `validOptionalPort`. Go library net/url, reached from client/client.go:75. -/
def validOptionalPort : Bytes → Bool
  | [] => true
  | b :: rest => b.val == 58 && rest.all isDigit

/-- The text from the last colon on, if there is one (`strings.LastIndex` in `parseHost`). Go library net/url, reached from
client/client.go:75. -/
def fromLastColon : Bytes → Option Bytes
  | [] => none
  | b :: rest =>
    match fromLastColon rest with
    | some r => some r
    | none => if b.val = 58 then some (b :: rest) else none

/-- `parseHost` of an authority without brackets, `@` and percent signs, printed: bytes beyond ASCII are percent-encoded. Go library net/url,
reached from client/client.go:44, 75. -/
def printHost (a : Bytes) : Option Bytes :=
  if (match fromLastColon a with | some p => validOptionalPort p | none => true) then
    if a.all (fun b => decide (128 ≤ b.val) || hostByte b) then
      some (a.flatMap fun b => if hostByte b then [b] else [37, hexDigit (b.val / 16), hexDigit (b.val % 16)])
    else none
  else none

/-- `parseAuthority`, printed; `other` is for authorities with `@`, `[` or `%`. Go library net/url, reached from client/client.go:44, 75. -/
def printAuthority (other : Bytes → Option Bytes) (a : Bytes) : Option Bytes :=
  if a.contains (64 : Byte) || a.contains (91 : Byte) || a.contains (37 : Byte) then other a else printHost a

/-- `parse` of an address without fragment, with `String` of the result. Go library net/url, reached from client/client.go:44, 75. -/
def parseUrl (other : Bytes → Option Bytes) (raw : Bytes) : Option Url :=
  if hasCTL raw then none
  else if raw = lit "*" then some ⟨lit "*", []⟩
  else
    match getScheme raw with
    | none => none
    | some (scheme, rest) =>
      let head := if scheme = [] then [] else lower scheme ++ lit ":"
      let query := (cut 63 rest).2
      let rest := (cut 63 rest).1
      if scheme ≠ [] ∧ rest.head? ≠ some 47 then some ⟨head ++ rest, query⟩
      else if rest.head? ≠ some 47 ∧ (cut 47 rest).1.contains (58 : Byte) then none
      else if (lit "//").isPrefixOf rest ∧ (scheme ≠ [] ∨ ¬ (lit "///").isPrefixOf rest) then
        let authority := (rest.drop 2).takeWhile (· ≠ 47)
        let path := (rest.drop 2).dropWhile (· ≠ 47)
        match printAuthority other authority with
        | none => none
        | some host =>
          match printPath path with
          | none => none
          | some p =>
            some ⟨head ++ (if scheme ≠ [] ∨ host ≠ [] then (if host ≠ [] ∨ path ≠ [] then lit "//" else []) else []) ++ host ++ p, query⟩
      else
        match printPath rest with
        | none => none
        | some p => some ⟨head ++ (if head = [] ∧ (cut 47 p).1.contains (58 : Byte) then lit "./" else []) ++ p, query⟩

/-- `url.Parse`: a fragment is cut off, and must be well escaped. Go library net/url, called at client/client.go:75. -/
def goParse (other : Bytes → Option Bytes) (raw : Bytes) : Option Url :=
  match parseUrl other (cut 35 raw).1 with
  | none => none
  | some u => if (unescapePath (cut 35 raw).2).isSome then some u else none

end Verif.Client
