import Verif.Spec.ClientSession

/-!
# Specification for C102: addresses (RFC 3986)
-/
namespace Verif.Client

open Verif.Doc

/-- What may stand in the name of a host: letters, digits and `-._~!$&'()*+,;=`. -/
def NameChar (b : Byte) : Prop :=
  (97 ≤ b.val ∧ b.val ≤ 122) ∨ (65 ≤ b.val ∧ b.val ≤ 90) ∨ (48 ≤ b.val ∧ b.val ≤ 57) ∨ b ∈ lit "-._~!$&'()*+,;="

/-- A host name, and possibly a port. -/
def Host (h : Bytes) : Prop :=
  ∃ name port, h = name ++ port ∧ name ≠ [] ∧ (∀ b ∈ name, NameChar b) ∧
    (port = [] ∨ ∃ ds, port = (58 : Byte) :: ds ∧ ∀ b ∈ ds, 48 ≤ b.val ∧ b.val ≤ 57)

/-- A path: empty, or a slash and more, of legal bytes and whole percent-encodings. -/
def Path (p : Bytes) : Prop := (p = [] ∨ ∃ r, p = (47 : Byte) :: r) ∧ (∀ b ∈ p, PathChar b) ∧ ∃ s, Decodes p s

/-- A query: anything but control characters and `#`. -/
def Query (q : Bytes) : Prop := ∀ b ∈ q, 32 ≤ b.val ∧ b.val ≠ 127 ∧ b.val ≠ 35

/-- `w` is the lower-case word `s`, with any of its letters written as capitals. -/
def AnyCase (w s : Bytes) : Prop := List.Forall₂ (fun a b : Byte => a = b ∨ a.val + 32 = b.val) w s

/-- `addr` is `http://` or `https://` (in capitals or not), a host and a path (together `u.base`, in small letters up to the host), then possibly
a question mark and the query `u.rawQuery`, then possibly `#` and a fragment of whole percent-encodings. -/
def Address (addr : Bytes) (u : Url) : Prop :=
  ∃ written scheme host path q f, (scheme = lit "http" ∨ scheme = lit "https") ∧ AnyCase written scheme ∧ Host host ∧ Path path ∧ Query u.rawQuery ∧
    addr = written ++ lit "://" ++ host ++ path ++ q ++ f ∧ u.base = scheme ++ lit "://" ++ host ++ path ∧
    (q = (63 : Byte) :: u.rawQuery ∨ q = [] ∧ u.rawQuery = []) ∧ (f = [] ∨ ∃ r s, f = (35 : Byte) :: r ∧ Decodes r s)

/-- As `Chain`, with the addresses of the pages taken from the Link headers by the rules of RFC 3986. -/
inductive Linked {α : Type} (c : Codec α) (token : Bytes) (net : Net) : List Url → Url → List (List α) → List Url → Prop
  | last {hist : List Url} {u : Url} {r : Response} {page : List α} : net (hist ++ [addAuthentication token u]) = some r →
    Holds c r.body page → LinksNowhere r.link → Linked c token net hist u [page] (hist ++ [addAuthentication token u])
  | more {hist reqs : List Url} {u u' : Url} {r : Response} {page : List α} {pages : List (List α)} {addr : Bytes} :
    net (hist ++ [addAuthentication token u]) = some r → Holds c r.body page → LinksTo r.link addr → Address addr u' →
    Linked c token net (hist ++ [addAuthentication token u]) u' pages reqs → Linked c token net hist u (page :: pages) reqs

end Verif.Client
