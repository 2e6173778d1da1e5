import Verif.Model.GoBase
import Verif.Model.Regex

/-! # Model of `sprite/style_file.go` (ASCII strings) -/
namespace Verif.StyleFile
open Verif.Go Verif.Regex

/-- sprite/style_file.go:14-18 `StyleFile`. -/
structure StyleFile where
  type : List Char
  ext : List Char
  pixelRatio : Int
  deriving DecidableEq, Repr

/-- sprite/style_file.go:33-38 `String`. -/
def toStr (f : StyleFile) : List Char :=
  if f.pixelRatio ≤ 1 then f.type ++ f.ext
  else f.type ++ '@' :: itoa f.pixelRatio ++ 'x' :: f.ext

/-- sprite/style_file.go:40 ``([^@]+)(@([0-9]+)x)?(\.[A-Za-z0-9]+)$``. -/
def reSubFile : Re :=
  .seq (.group 1 (.plus (fun c => c != '@')))
  (.seq (.opt (.group 2 (.seq (.cls (· == '@')) (.seq (.group 3 (.plus isDig)) (.cls (· == 'x'))))))
  (.seq (.group 4 (.seq (.cls (· == '.')) (.plus isAlnum))) .eos))

/-- `strings.ToLower` on ASCII. Go library strings, called at sprite/style_file.go:50-51. -/
def toLower (s : List Char) : List Char := s.map lower

/-- sprite/style_file.go:42-62 `ParseStyleFile`; `none` is `InvalidSubFile`. -/
def parseStyleFile (s : List Char) : Option StyleFile :=
  match reSubFile.find s with
  | none => none
  | some m =>
    let ratio : Int :=
      if m.get 3 ≠ [] then
        match parseInt (m.get 3) 10 with
        | .ok i => i
        | .error _ => 1
      else 1
    some ⟨toLower (m.get 1), toLower (m.get 4), ratio⟩

/-- sprite/style_file.go:20-27 `UnmarshalText`: the receiver afterwards, and whether an error is returned. -/
def unmarshalText (f : StyleFile) (text : List Char) : StyleFile × Bool :=
  match parseStyleFile text with
  | none => (f, true)
  | some sf => (sf, false)

/-- sprite/style_file.go:29-31 `MarshalText`. -/
def marshalText (f : StyleFile) : List Char := toStr f

end Verif.StyleFile
