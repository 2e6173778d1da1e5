import Verif.Model.ClientSession
import Verif.Spec.Utf8
import Verif.Spec.JsonText
import Verif.Spec.Doc

/-!
# Specification for C99: what is sent, and what a chain of answers is
-/
namespace Verif.Client

open Verif.Doc

/-! ## RFC 3986 -/

/-- A hexadecimal digit and its value. -/
def HexByte (b : Byte) (n : Nat) : Prop :=
  (48 ≤ b.val ∧ b.val ≤ 57 ∧ n = b.val - 48) ∨ (65 ≤ b.val ∧ b.val ≤ 70 ∧ n = b.val - 55) ∨ (97 ≤ b.val ∧ b.val ≤ 102 ∧ n = b.val - 87)

/-- A percent-encoded text and the bytes it stands for. -/
inductive Decodes : Bytes → Bytes → Prop
  | nil : Decodes [] []
  | plain {b : Byte} {e s : Bytes} : b.val ≠ 37 → Decodes e s → Decodes (b :: e) (b :: s)
  | pct {h l b : Byte} {p q : Nat} {e s : Bytes} : HexByte h p → HexByte l q → b.val = 16 * p + q → Decodes e s →
    Decodes ((37 : Byte) :: h :: l :: e) (b :: s)

/-- What may stand in a path: letters, digits and `-._~!$&'()*+,;=:@/`, and `%`.  No blank, control character, quote, `?`, `#` or byte above 126. -/
def PathChar (b : Byte) : Prop :=
  (97 ≤ b.val ∧ b.val ≤ 122) ∨ (65 ≤ b.val ∧ b.val ≤ 90) ∨ (48 ≤ b.val ∧ b.val ≤ 57) ∨ b ∈ lit "-._~!$&'()*+,;=:@/%"

/-- What the client writes in a query: letters, digits, `-._~`, and `%`, `+`, `&`, `=`. -/
def QueryChar (b : Byte) : Prop :=
  (97 ≤ b.val ∧ b.val ≤ 122) ∨ (65 ≤ b.val ∧ b.val ≤ 90) ∨ (48 ≤ b.val ∧ b.val ≤ 57) ∨ b ∈ lit "-._~%+&="

/-- A request to the API at a path: its address is legal, is decoded to the path, and has a query of legal bytes. -/
structure AsksFor (u : Url) (path : Bytes) : Prop where
  base : ∃ e, u.base = lit "https://api.mapbox.com/" ++ e ∧ Decodes e path ∧ ∀ b ∈ e, PathChar b
  query : u.rawQuery ≠ [] ∧ ∀ b ∈ u.rawQuery, QueryChar b

/-- The values of a parameter in the query of a request. -/
def Url.param (u : Url) (k : String) : List Bytes := (parseQuery u.rawQuery).get (lit k)

/-! ## Answers -/

/-- A body that begins with a JSON value (after blanks); numbers must have come to an end. -/
def Begins (body : List Nat) (j : J) : Prop :=
  ∃ s w t r, Utf8.Repaired body s ∧ JText.Ws w ∧ JText.Text j t ∧ s = w ++ (t ++ r) ∧ JText.depth j ≤ 10000 ∧ ((∃ n, j = .num n) → JText.Ends r)

/-- A body that begins with what `json.Marshal` writes for a list. -/
def Holds {α : Type} (c : Codec α) (body : List Nat) (page : List α) : Prop :=
  ∃ b rest, JBytes.marshal (sliceC c) (some page) = some b ∧ body = b ++ rest

/-- A Link header with one address and the word "next"; the rest of it does not use brackets. -/
def LinksTo (link addr : Bytes) : Prop :=
  ∃ pre post, link = pre ++ (60 : Byte) :: (addr ++ (62 : Byte) :: post) ∧ (60 : Byte) ∉ pre ∧ (62 : Byte) ∉ post ∧
    (∀ b ∈ addr ++ (62 : Byte) :: post, b.val ≠ 10) ∧ ∃ a b, link = a ++ lit "next" ++ b

/-- A Link header (or none) that does not contain the word "next". -/
def LinksNowhere (link : Bytes) : Prop := ¬ ∃ a b, link = a ++ lit "next" ++ b

/-- With the requests `hist` behind it, the network answers the request for `u`, and those for the addresses its answers link to, with bodies
holding the pages `pages`; `reqs` are all requests at the end. -/
inductive Chain {α : Type} (c : Codec α) (parse : Bytes → Option Url) (token : Bytes) (net : Net) :
    List Url → Url → List (List α) → List Url → Prop
  | last {hist : List Url} {u : Url} {r : Response} {page : List α} : net (hist ++ [addAuthentication token u]) = some r →
    Holds c r.body page → LinksNowhere r.link → Chain c parse token net hist u [page] (hist ++ [addAuthentication token u])
  | more {hist reqs : List Url} {u u' : Url} {r : Response} {page : List α} {pages : List (List α)} {addr : Bytes} :
    net (hist ++ [addAuthentication token u]) = some r → Holds c r.body page → LinksTo r.link addr → parse addr = some u' →
    Chain c parse token net (hist ++ [addAuthentication token u]) u' pages reqs → Chain c parse token net hist u (page :: pages) reqs

end Verif.Client
