/-!
# Go `regexp` (leftmost-first, backtracking semantics) for the operators used in /repo

`regexp` is not code of /repo; this is the documented matching semantics (Perl-like preference order: earlier start
first, greedy repetition tries the longest first), restricted to repetition of character classes, which is all the six
patterns of /repo need. Part of the trusted base.
-/
namespace Verif.Regex

/-- Go library regexp, used at style/colors.go:73-76, sprite/style_file.go:40-60, client/client.go:71-75. -/
inductive Re where
  | cls (p : Char → Bool)          -- one character of a class
  | star (p : Char → Bool)         -- greedy `p*`
  | plus (p : Char → Bool)         -- greedy `p+`
  | opt (r : Re)                   -- greedy `r?`
  | seq (a b : Re)
  | group (i : Nat) (r : Re)       -- capturing group number `i`
  | eos                            -- `$` without (?m): end of text

/-- captures: group number and text, innermost first.
Go library regexp, used at style/colors.go:73-76, sprite/style_file.go:40-60, client/client.go:71-75. -/
abbrev Caps := List (Nat × List Char)

/-- greedy repetition of a class, then continue with `k`; on failure give back one character at a time.
Go library regexp, used at style/colors.go:73-76, sprite/style_file.go:40-60, client/client.go:71-75. -/
def starM (p : Char → Bool) : List Char → (List Char → Option Caps) → Option Caps
  | [], k => k []
  | c :: s, k =>
    if p c then
      match starM p s k with
      | some r => some r
      | none => k (c :: s)
    else k (c :: s)

/-- match at the beginning of the text, then continue with `k` on the rest.
Go library regexp, used at style/colors.go:73-76, sprite/style_file.go:40-60, client/client.go:71-75. -/
def Re.m : Re → List Char → Caps → (List Char → Caps → Option Caps) → Option Caps
  | .cls p, s, cap, k => match s with
    | c :: s' => if p c then k s' cap else none
    | [] => none
  | .star p, s, cap, k => starM p s (fun s' => k s' cap)
  | .plus p, s, cap, k => match s with
    | c :: s' => if p c then starM p s' (fun s'' => k s'' cap) else none
    | [] => none
  | .opt r, s, cap, k => match r.m s cap k with
    | some x => some x
    | none => k s cap
  | .seq a b, s, cap, k => a.m s cap (fun s' cap' => b.m s' cap' k)
  | .group i r, s, cap, k => r.m s cap (fun s' cap' => k s' ((i, s.take (s.length - s'.length)) :: cap'))
  | .eos, s, cap, k => if s = [] then k s cap else none

/-- the first match: leftmost start.
Go library regexp, used at style/colors.go:73-76, sprite/style_file.go:40-60, client/client.go:71-75. -/
def Re.find (r : Re) : List Char → Option Caps
  | [] => r.m [] [] (fun s' c => some ((0, [].take (0 - s'.length)) :: c))
  | c :: s =>
    match r.m (c :: s) [] (fun s' cap => some ((0, (c :: s).take ((c :: s).length - s'.length)) :: cap)) with
    | some x => some x
    | none => r.find s

/-- text of a group; a group that did not take part is the empty string, as in `FindStringSubmatch`.
Go library regexp, used at style/colors.go:73-76, sprite/style_file.go:40-60, client/client.go:71-75. -/
def Caps.get (c : Caps) (i : Nat) : List Char := ((c.find? (fun p => p.1 == i)).map Prod.snd).getD []

/-- a literal string. Part of the regular expressions at style/colors.go:73-76, sprite/style_file.go:40. -/
def lit : List Char → Re
  | [] => .opt (.cls fun _ => false)
  | [c] => .cls (· == c)
  | c :: cs => .seq (.cls (· == c)) (lit cs)

/-- `[0-9]` / `\d`. Part of the regular expressions at style/colors.go:73-76, sprite/style_file.go:40. -/
def isDig (c : Char) : Bool := decide ('0' ≤ c) && decide (c ≤ '9')
/-- `[A-Za-z0-9]`. Part of the regular expressions at style/colors.go:73-76, sprite/style_file.go:40. -/
def isAlnum (c : Char) : Bool :=
  isDig c || (decide ('A' ≤ c) && decide (c ≤ 'Z')) || (decide ('a' ≤ c) && decide (c ≤ 'z'))
/-- `\s` is `[\t\n\f\r ]`. Part of the regular expressions at style/colors.go:73-76, sprite/style_file.go:40. -/
def isSpace (c : Char) : Bool := c == '\t' || c == '\n' || c == '\x0c' || c == '\r' || c == ' '

end Verif.Regex
