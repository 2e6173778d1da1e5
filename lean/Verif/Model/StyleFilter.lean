import Verif.Model.StyleZoom

/-!
# Model of style/filter.go and style/styling.go (StyleSet) and of the background colour of style/style.go

A JSON text is modelled by its value (`Json`); encoding/json itself is trusted.
-/
namespace Verif.Style

/-- What encoding/json reads from the text of a number: its float64 value, and the int it spells, if it is written without
point and exponent and is in range. Go library encoding/json, for style/style.go:45-60, style/layer.go:68-71. -/
structure Numb where
  val : ℚ
  int : Option Int

/-- JSON values as encoding/json decodes them into `interface{}`; objects keep the order and the repetitions of their members.
Go library encoding/json, for style/filter.go:82-125, 183-232. -/
inductive Json
  | null
  | bool (b : Bool)
  | num (q : Numb)
  /-- a number beyond the range of float64 -/
  | huge
  | str (s : String)
  | arr (l : List Json)
  | obj (l : List (String × Json))

mutual
/-- Whether a value fits `interface{}`: all its numbers are in the range of float64. Go library encoding/json (convertNumber), for
style/filter.go:83, 202, style/colors.go:31, style/numeric_function.go:22, style/paint.go:7, 15-16, style/layout.go:10 and
style/metadata.go:3. -/
def Json.sane : Json → Bool
  | .huge => false
  | .arr l => Json.saneL l
  | .obj l => Json.saneM l
  | _ => true
/-- The elements. Go library encoding/json, for style/filter.go:83. -/
def Json.saneL : List Json → Bool
  | [] => true
  | j :: js => j.sane && Json.saneL js
/-- The members. Go library encoding/json, for style/metadata.go:3. -/
def Json.saneM : List (String × Json) → Bool
  | [] => true
  | (_, j) :: js => j.sane && Json.saneM js
end

/-- `Category` (style/filter.go:127-161). -/
inductive Category
  | cls (operands : List String)
  | subclass (operands : List String)
  | type (operands : List String)
  | unhandled
deriving DecidableEq, Repr

/-- `Filter`: `LogicalFilter` (style/filter.go:51-54) or `ComparativeFilter` (style/filter.go:64-67). -/
inductive Filter
  | logical (op : String) (subs : List Filter)
  | comparative (op : String) (cat : Category)

/-- `interfaceListToStringList` (style/filter.go:69-80): the first operand that is not a string is an error. -/
def stringList : List Json → Except Fail (List String)
  | [] => .ok []
  | .str s :: rest =>
    match stringList rest with
    | .error e => .error e
    | .ok l => .ok (s :: l)
  | _ :: _ => .error .err

/-- wrap the operands of a handled category. style/filter.go:92-122. -/
def withOperands (mk : List String → Category) (rest : List Json) : Except Fail Category :=
  match stringList rest with
  | .error e => .error e
  | .ok l => .ok (mk l)

/-- The `switch` of `ComparativeFilter.UnmarshalJSON` (style/filter.go:92-122). -/
def categoryOf (name : String) (rest : List Json) : Except Fail Category :=
  if name = "class" then withOperands .cls rest
  else if name = "subclass" then withOperands .subclass rest
  else if name = "$type" then withOperands .type rest
  else .ok .unhandled

/-- `ComparativeFilter.UnmarshalJSON` (style/filter.go:82-125) on an array of at least two elements whose second
is the string `name`.  `items[0].(string)` panics on anything but a string. -/
def comparative (op : Json) (name : String) (rest : List Json) : Except Fail Filter :=
  match op with
  | .str o =>
    match categoryOf name rest with
    | .error e => .error e
    | .ok c => .ok (.comparative o c)
  | _ => .error .panic

/-- `json.Unmarshal(fi[0], &operator)` (style/filter.go:190-194): a string, or null which leaves "" unchanged;
anything else is an error. -/
def operatorOf : Json → Except Fail String
  | .str s => .ok s
  | .null => .ok ""
  | _ => .error .err

mutual
/-- `unmarshalFilter` (style/filter.go:183-232).  Unmarshalling into `[]json.RawMessage` fails on anything but an
array or null; null and `[]` leave an empty slice, and `fi[0]` panics.  The second element is decoded into an `interface{}`,
and all of them are when it is a string (style/filter.go:83). -/
def unmarshalFilter : Json → Except Fail Filter
  | .null => .error .panic
  | .arr [] => .error .panic
  | .arr [op] =>
    match operatorOf op with
    | .error e => .error e
    | .ok o => .ok (.logical o [])
  | .arr (op :: second :: rest) =>
    match operatorOf op with
    | .error e => .error e
    | .ok o =>
      if !second.sane then .error .err
      else match second with
      | .arr l =>
        match unmarshalFilter (.arr l) with
        | .error e => .error e
        | .ok f =>
          match unmarshalFilters rest with
          | .error e => .error e
          | .ok fs => .ok (.logical o (f :: fs))
      | .str name => if !Json.saneL rest then .error .err else comparative op name rest
      | _ => .error .panic
  | _ => .error .err
/-- The loop over the sub-filters (style/filter.go:216-222). -/
def unmarshalFilters : List Json → Except Fail (List Filter)
  | [] => .ok []
  | j :: rest =>
    match unmarshalFilter j with
    | .error e => .error e
    | .ok f =>
      match unmarshalFilters rest with
      | .error e => .error e
      | .ok fs => .ok (f :: fs)
end

/-- `FilterType` (style/filter.go:39-44). -/
inductive FilterType
  | logical
  | comparative
deriving DecidableEq, Repr

/-- `Type` (style/filter.go:56-58, 161-163). -/
def Filter.type : Filter → FilterType
  | .logical _ _ => .logical
  | .comparative _ _ => .comparative

/-- `Operator` (style/filter.go:60-62, 165-167). -/
def Filter.operator : Filter → String
  | .logical op _ => op
  | .comparative op _ => op

/-- `FilterContainer.UnmarshalJSON` (style/filter.go:173-181): the filter held before, the filter held afterwards and the
outcome. -/
def containerUnmarshal (held : Option Filter) (j : Json) : Option Filter × Except Fail Unit :=
  match unmarshalFilter j with
  | .error e => (held, .error e)
  | .ok f => (some f, .ok ())

/-- `ComparativeFilter.UnmarshalJSON` (style/filter.go:82-125) called on a filter `cf` (operator and category): the receiver
afterwards and the outcome. The operator is stored before the category is looked at. -/
def comparativeInto (cf : String × Option Category) (j : Json) : (String × Option Category) × Except Fail Unit :=
  if !j.sane then (cf, .error .err)
  else match j with
  | .arr (.str o :: rest) =>
    match rest with
    | .str name :: ops =>
      match categoryOf name ops with
      | .error e => ((o, cf.2), .error e)
      | .ok c => ((o, some c), .ok ())
    | _ => ((o, cf.2), .error .panic)
  | .arr _ => (cf, .error .panic)
  | .null => (cf, .error .panic)
  | _ => (cf, .error .err)

/-- `OperandCount` (style/filter.go:127-159). -/
def Category.operandCount : Category → Nat
  | .cls l => l.length
  | .subclass l => l.length
  | .type l => l.length
  | .unhandled => 0

/-! ## StyleSet -/

/-- A `Style` (style/style.go:45-60), of which only the id matters here; `body` stands for the other fields. -/
structure StyleDoc (β : Type) where
  id : String
  body : β

/-- `StyleSet` (style/styling.go:43-46); the Go map is an association list (at most one entry per key). -/
structure StyleSet (β : Type) where
  map : List (String × StyleDoc β)
  defaultID : String

/-- `m[k]`. Go language, at style/styling.go:77-83. -/
def mapGet {β : Type} (m : List (String × StyleDoc β)) (k : String) : Option (StyleDoc β) :=
  (m.find? (fun p => p.1 = k)).map Prod.snd

/-- The loop of `NewStyleSet` (style/styling.go:55-68): the map and `defaultIDFound`. -/
def styleLoop {β : Type} (defaultID : String) :
    List (StyleDoc β) → List (String × StyleDoc β) → Bool → Except Fail (List (String × StyleDoc β) × Bool)
  | [], m, found => .ok (m, found)
  | s :: rest, m, found =>
    if (mapGet m s.id).isSome then .error .err
    else styleLoop defaultID rest (m ++ [(s.id, s)]) (found || decide (defaultID = s.id))

/-- `NewStyleSet` (style/styling.go:48-75). -/
def newStyleSet {β : Type} (styles : List (StyleDoc β)) (defaultID : String) : Except Fail (StyleSet β) :=
  match styleLoop defaultID styles [] false with
  | .error e => .error e
  | .ok (m, found) => if found then .ok ⟨m, defaultID⟩ else .error .err

/-- `GetStyleByID` (style/styling.go:77-79); an unknown id gives the zero `Style`. -/
def StyleSet.byID {β : Type} [Inhabited β] (s : StyleSet β) (id : String) : StyleDoc β :=
  (mapGet s.map id).getD ⟨"", default⟩

/-- `GetDefaultStyle` (style/styling.go:81-83). -/
def StyleSet.default {β : Type} [Inhabited β] (s : StyleSet β) : StyleDoc β := s.byID s.defaultID

/-- `GetAllStyleIDs` (style/styling.go:85-93) may return `out`: Go iterates over a map in any order. -/
def StyleSet.AllIDs {β : Type} (s : StyleSet β) (out : List String) : Prop := out.Perm (s.map.map Prod.fst)

/-! ## Background colour -/

/-- `calculateBackgroundColor` (style/style.go:27-38) on the layers' ids and paints: `none` is a nil `Paint`
pointer.  White when there is no layer or the first is not called "background"; a background layer without
paint dereferences nil.  (`color.White` is written as the RGBA white here.) -/
def backgroundColor {K : Type} [Field K] [LinearOrder K] [IsStrictOrderedRing K] [FloorRing K]
    (A : Arith K) (layers : List (String × Option (ColProp K))) : Except Fail (ColOut K) :=
  match layers with
  | [] => .ok (.color (.rgba 255 255 255 255))
  | (id, paint) :: _ =>
    if id = "background" then
      match paint with
      | none => .error .panic
      | some c => c.at A 0
    else .ok (.color (.rgba 255 255 255 255))

/-- `Style.Validate` (style/style.go:78-85). -/
def styleValidate (version : Int) : Except Fail Unit := if version ≠ 8 then .error .err else .ok ()

end Verif.Style
