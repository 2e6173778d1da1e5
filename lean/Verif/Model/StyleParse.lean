import Verif.Model.StyleFilter
import Verif.Model.StyleColor
import Verif.Model.Doc

/-!
# Model of parsing a style: style/style.go `Parse` and the `UnmarshalJSON` methods of style/

encoding/json decodes the members of an object in the order of the text; a value that does not fit its Go type is remembered as an
error and decoding goes on, while an error or panic of an `UnmarshalJSON` method ends it. A member belongs to the field whose name
equals its key up to case; a later member of the same field is decoded over what an earlier one left.
Simplifications: a slice that was given several times forgets the elements it has been cut down by (Go finds them again in the
capacity of the slice).
-/
namespace Verif.Style

/-- Decoding into a value of type `α`: stopped by an error or panic of an `UnmarshalJSON` method, or a value and whether a type
mismatch has been remembered (Go library encoding/json, at style/style.go:65). -/
abbrev Dec (α : Type) := Except Fail (α × Bool)

/-- The members of an object, in order. Go library encoding/json, at style/style.go:65. -/
def decFields {σ : Type} (f : String → Json → σ → Dec σ) : List (String × Json) → σ → Dec σ
  | [], s => .ok (s, false)
  | (k, j) :: rest, s =>
    match f k j s with
    | .error e => .error e
    | .ok (s1, b1) =>
      match decFields f rest s1 with
      | .error e => .error e
      | .ok (s2, b2) => .ok (s2, b1 || b2)

/-- The field a key belongs to: the one of this name up to case; a key of no field stays as it is. Simplification: an exact match is
not preferred, as no two fields of a struct of this package have names that differ only in case. Go library encoding/json
(decodeState.object, foldName), at style/style.go:65. -/
def canon (names : List String) (k : String) : String :=
  (names.find? fun n => Doc.fold n.toList == Doc.fold k.toList).getD k

/-- The members of an object with the names of the fields they belong to. Go library encoding/json (decodeState.object), at
style/style.go:65. -/
def renamed (names : List String) (fs : List (String × Json)) : List (String × Json) :=
  fs.map fun p => (canon names p.1, p.2)

/-- The elements of an array, in order. Go library encoding/json, at style/style.go:65. -/
def decElems {α : Type} (f : Json → Dec α) : List Json → Dec (List α)
  | [] => .ok ([], false)
  | j :: rest =>
    match f j with
    | .error e => .error e
    | .ok (a, b1) =>
      match decElems f rest with
      | .error e => .error e
      | .ok (l, b2) => .ok (a :: l, b1 || b2)

/-- The elements of an array decoded over the elements `old` that are there already; a new element starts as `z`. Go library
encoding/json, for style/style.go:49. Simplified: with three or more members of the name, an element that a longer array left in the
slice's capacity before a shorter one would be decoded over by a longer one again; here it starts as `z`. -/
def decOver {α : Type} (f : α → Json → Dec α) (z : α) : List α → List Json → Dec (List α)
  | _, [] => .ok ([], false)
  | old, j :: rest =>
    match f (old.headD z) j with
    | .error e => .error e
    | .ok (a, b1) =>
      match decOver f z old.tail rest with
      | .error e => .error e
      | .ok (l, b2) => .ok (a :: l, b1 || b2)

/-- What `json.Unmarshal` returns: the remembered error, if any. Go library encoding/json, at style/style.go:65,
style/colors.go:49, style/numeric_function.go:35. -/
def finish {α : Type} : Dec α → Except Fail α
  | .error e => .error e
  | .ok (a, bad) => if bad then .error .err else .ok a

/-- Whether a value fits a Go type without methods of its own; null fits every type. Go library encoding/json, for the field types
of style/style.go:45-60, style/layer.go:23-34, 54-71, style/paint.go:3-21, style/layout.go:3-21. -/
abbrev Ty := Json → Bool

/-- `interface{}`. Go library encoding/json, for style/paint.go:7, 15-16, style/layout.go:10, style/metadata.go:3. -/
def Ty.any : Ty := Json.sane
/-- No field: the value is skipped. Go library encoding/json, for style/style.go:65. -/
def Ty.skip : Ty := fun _ => true
/-- `string`. Go library encoding/json, for style/style.go:48-59. -/
def Ty.str : Ty | .str _ => true | .null => true | _ => false
/-- `float64`. Go library encoding/json, for style/style.go:46-58. -/
def Ty.num : Ty | .num _ => true | .null => true | _ => false
/-- `int`. Go library encoding/json, for style/style.go:57, style/layer.go:68-71. -/
def Ty.int : Ty
  | .num q => q.int.isSome
  | .null => true
  | _ => false
/-- A slice. Go library encoding/json, for style/style.go:47. -/
def Ty.list (t : Ty) : Ty | .arr l => l.all t | .null => true | _ => false
/-- A map with string keys. Go library encoding/json, for style/style.go:51, style/layer.go:66. -/
def Ty.map (t : Ty) : Ty | .obj l => l.all (fun p => t p.2) | .null => true | _ => false
/-- A struct with fields `names`; unknown keys are ignored. Go library encoding/json, for style/layer.go:54-71. -/
def Ty.struct (names : List String) (t : String → Ty) : Ty
  | .obj l => (renamed names l).all (fun p => t p.1 p.2)
  | .null => true
  | _ => false
/-- An interface with methods, such as `color.Color`: only null fits. Go library encoding/json, for style/layer.go:56. -/
def Ty.iface : Ty | .null => true | _ => false

/-- A string field: null leaves it as it is. Go library encoding/json, for style/layer.go:23-34, style/style.go:45-60. -/
def strField (old : String) : Json → String × Bool
  | .str s => (s, false)
  | .null => (old, false)
  | _ => (old, true)

/-- A `*float64` field. Go library encoding/json, for style/layer.go:27-29, style/numeric_function.go:60, style/color_function.go:36. -/
def optNumField (old : Option ℚ) : Json → Option ℚ × Bool
  | .num q => (some q.val, false)
  | .null => (none, false)
  | _ => (old, true)

/-- A field that is a pointer to a type with `UnmarshalJSON`: null makes it nil, anything else is passed to the method. Go library
encoding/json, for style/paint.go:3-21, style/layout.go:9, 14. -/
def ptrField {α σ : Type} (g : Json → Except Fail α) (nul : σ) (put : α → σ) (j : Json) : Dec σ :=
  match j with
  | .null => .ok (nul, false)
  | j =>
    match g j with
    | .error e => .error e
    | .ok c => .ok (put c, false)

/-- A struct with fields `names`, or a pointer to one, decoded over `z`: null gives `nul`, a value that is no object is a mismatch. Go library
encoding/json, for style/layer.go:26, 30, style/style.go:49, 65. -/
def structField {σ τ : Type} (names : List String) (f : String → Json → σ → Dec σ) (z : σ) (nul bad : τ) (put : σ → τ)
    (j : Json) : Dec τ :=
  match j with
  | .null => .ok (nul, false)
  | .obj fs =>
    match decFields f (renamed names fs) z with
    | .error e => .error e
    | .ok (p, b) => .ok (put p, b)
  | _ => .ok (bad, true)

/-! ## Numbers -/

/-- `numericStopType.UnmarshalJSON` (style/numeric_stop_type.go:10-23): decoding into `[2]interface{}` drops further elements and leaves
nil for missing ones and for null; the type assertions panic on anything but numbers. It is only called when all numbers are in range (`numberOf`). -/
def numStop : Json → Except Fail (NumStop ℚ)
  | .arr (.num z :: .num v :: _) => .ok ⟨z.val, v.val⟩
  | .arr _ => .error .panic
  | .null => .error .panic
  | _ => .error .err

/-- A field of `NumericFunctionType` (style/numeric_function.go:58-62). The type name is not used. -/
def numFnField (k : String) (j : Json) (s : List (NumStop ℚ) × Option ℚ) : Dec (List (NumStop ℚ) × Option ℚ) :=
  if k = "stops" then
    match j with
    | .arr l =>
      match decElems (fun j => (numStop j).map fun a => (a, false)) l with
      | .error e => .error e
      | .ok (l, b) => .ok ((l, s.2), b)
    | .null => .ok (([], s.2), false)
    | _ => .ok (s, true)
  else if k = "base" then
    let r := optNumField s.2 j
    .ok ((s.1, r.1), r.2)
  else if k = "type" then .ok (s, !Ty.str j)
  else .ok (s, false)

/-- The names of its fields (style/numeric_function.go:58-62). -/
def numFnNames : List String := ["type", "base", "stops"]

/-- `NumberOrFunctionWrapperType.UnmarshalJSON` (style/numeric_function.go:21-46): decoding into an `interface{}` comes first. -/
def numberOf : Json → Except Fail (NumProp ℚ)
  | .num q => .ok (.plain q.val)
  | .obj l =>
    if !Json.saneM l then .error .err
    else (finish (decFields numFnField (renamed numFnNames l) ([], none))).map fun s => .fn s.1 s.2
  | j => if !j.sane then .error .err else .error .panic

/-! ## Colours -/

/-- A `color.Color` from a parsed colour; `imp` is the alpha the implementation picks where Go leaves it open.
style/colors.go:79-105. -/
def Parsed.color (imp : Nat) : Parsed → Color ℚ
  | .nil => .nil
  | .rgba r g b a => .rgba r g b (a.getD imp)
  | .hsl h s l a => .hsl h s l (a.getD imp)

/-- `colorStop.UnmarshalJSON` (style/color_function.go:13-32). It is only called when all numbers are in range (`colourOf`). -/
def colStop (rnd : ℚ → ℚ) (imp : Nat) : Json → Except Fail (ColStop ℚ)
  | .arr (.num z :: .str s :: _) => (strToColor rnd s.toList 255).map fun c => ⟨z.val, c.color imp⟩
  | .arr _ => .error .panic
  | .null => .error .panic
  | _ => .error .err

/-- An element of `Stops []*colorStop` (style/color_function.go:34-37): null is a nil pointer and does not reach `UnmarshalJSON`. -/
def colElem (rnd : ℚ → ℚ) (imp : Nat) (j : Json) : Dec (Option (ColStop ℚ)) :=
  match j with
  | .null => .ok (none, false)
  | j => (colStop rnd imp j).map fun s => (some s, false)

/-- A field of `ColorStopsType` (style/color_function.go:34-37). -/
def colFnField (rnd : ℚ → ℚ) (imp : Nat) (k : String) (j : Json) (s : List (Option (ColStop ℚ)) × Option ℚ) :
    Dec (List (Option (ColStop ℚ)) × Option ℚ) :=
  if k = "stops" then
    match j with
    | .arr l =>
      match decElems (colElem rnd imp) l with
      | .error e => .error e
      | .ok (l, b) => .ok ((l, s.2), b)
    | .null => .ok (([], s.2), false)
    | _ => .ok (s, true)
  else if k = "base" then
    let r := optNumField s.2 j
    .ok ((s.1, r.1), r.2)
  else .ok (s, false)

/-- The names of its fields (style/color_function.go:34-37). -/
def colFnNames : List String := ["stops", "base"]

/-- `ColorType` (style/colors.go:19-21) as parsed: stops may be nil pointers. -/
inductive ColVal
  | absent
  | plain (c : Color ℚ)
  | stops (st : List (Option (ColStop ℚ))) (base : Option ℚ)

/-- `ColorType.UnmarshalJSON` (style/colors.go:30-58): decoding into an `interface{}` comes first. -/
def colourOf (rnd : ℚ → ℚ) (imp : Nat) : Json → Except Fail ColVal
  | .str s => (strToColor rnd s.toList 255).map fun c => .plain (c.color imp)
  | .obj l =>
    if !Json.saneM l then .error .err
    else (finish (decFields (colFnField rnd imp) (renamed colFnNames l) ([], none))).map fun s => .stops s.1 s.2
  | j => if !j.sane then .error .err else .error .panic

/-- The loop of `ColorStopsType.GetValueAtZoomLevel` with stops that may be nil (style/color_function.go:50-80). -/
def colLoopN (A : Arith ℚ) (base : Option ℚ) (zoom : ℚ) (this : ColStop ℚ) :
    List (Option (ColStop ℚ)) → Except Fail (ColOut ℚ)
  | [] => .ok (.color this.color)
  | none :: _ => .error .panic
  | some next :: rest =>
    if next.zoom ≤ zoom then colLoopN A base zoom next rest
    else colBlend A base zoom this next

/-- `ColorType.GetColorAtZoomLevel` (style/colors.go:23-28, style/color_function.go:39-83). -/
def ColVal.at (A : Arith ℚ) (zoom : ℚ) : ColVal → Except Fail (ColOut ℚ)
  | .absent => .ok (.color .nil)
  | .plain c => .ok (.color c)
  | .stops [] _ => .error .panic
  | .stops (none :: _) _ => .error .panic
  | .stops (some s :: rest) base => if zoom < s.zoom then .ok (.color .nil) else colLoopN A base zoom s rest

/-! ## Layers and styles -/

/-- The fields of `Paint` of type `*ColorType`. style/paint.go:4-20. -/
def colourNames : List String :=
  ["background-color", "fill-color", "line-color", "fill-outline-color", "text-color", "text-halo-color"]

/-- The fields of `Paint` of type `*NumberOrFunctionWrapperType`. style/paint.go:4-20. -/
def numberNames : List String := ["fill-opacity", "line-gap-width", "line-opacity", "line-width"]

/-- The other fields of `Paint`. style/paint.go:4-20. -/
def paintTy (k : String) : Ty :=
  if k = "line-dasharray" then .list .num
  else if k = "line-offset" ∨ k = "text-halo-blur" ∨ k = "text-halo-width" then .num
  else if k ∈ ["fill-antialias", "fill-translate", "fill-pattern"] then .any
  else .skip

/-- `Paint` (style/paint.go:3-21): its colours and numbers by name. -/
structure Paint where
  colour : String → ColVal
  number : String → NumProp ℚ

/-- The zero `Paint`. style/paint.go:3-21. -/
def Paint.zero : Paint := ⟨fun _ => .absent, fun _ => .absent⟩

/-- A field of `Paint` (style/paint.go:3-21); null gives a nil pointer. -/
def paintField (rnd : ℚ → ℚ) (imp : Nat) (k : String) (j : Json) (p : Paint) : Dec Paint :=
  if k ∈ colourNames then
    ptrField (colourOf rnd imp) { p with colour := Function.update p.colour k .absent }
      (fun c => { p with colour := Function.update p.colour k c }) j
  else if k ∈ numberNames then
    ptrField numberOf { p with number := Function.update p.number k .absent }
      (fun c => { p with number := Function.update p.number k c }) j
  else .ok (p, !paintTy k j)

/-- The names of the fields of `Paint`. style/paint.go:4-20. -/
def paintNames : List String :=
  colourNames ++ numberNames ++
    ["fill-antialias", "line-dasharray", "line-offset", "fill-translate", "fill-pattern", "text-halo-blur", "text-halo-width"]

/-- The fields of `Layout` other than `text-size` and `icon-size`. style/layout.go:3-21. -/
def layoutTy (k : String) : Ty :=
  if k ∈ ["visibility", "line-cap", "line-join", "text-field", "text-rotation-alignment", "text-transform", "text-anchor",
    "icon-image"] then .str
  else if k = "text-font" then .list .str
  else if k ∈ ["text-letter-spacing", "text-max-width", "symbol-spacing", "text-padding"] then .num
  else if k = "text-offset" then .list .num
  else if k = "symbol-placement" then .any
  else .skip

/-- A field of `Layout` (style/layout.go:3-21): the numbers by name, the rest only has to fit. -/
def layoutField (k : String) (j : Json) (p : String → NumProp ℚ) : Dec (String → NumProp ℚ) :=
  if k = "text-size" ∨ k = "icon-size" then
    ptrField numberOf (Function.update p k .absent) (fun c => Function.update p k c) j
  else .ok (p, !layoutTy k j)

/-- The names of the fields of `Layout`. style/layout.go:4-20. -/
def layoutNames : List String :=
  ["visibility", "line-cap", "line-join", "text-field", "text-font",
   "text-size", "symbol-placement", "text-letter-spacing", "text-rotation-alignment", "text-transform",
   "icon-size", "text-anchor", "text-max-width", "text-offset", "symbol-spacing", "icon-image", "text-padding"]

/-- `Layer` (style/layer.go:23-34) without its metadata. -/
structure LayerDoc where
  id : String := ""
  filter : Option Filter := none
  minZoom : Option ℚ := none
  maxZoom : Option ℚ := none
  paint : Option Paint := none
  layout : String → NumProp ℚ := fun _ => .absent
  source : String := ""
  sourceLayer : String := ""
  type : String := ""

/-- A field of `Layer` (style/layer.go:23-34). `FilterContainer` is not a pointer, so its `UnmarshalJSON` is called for null too. -/
def layerField (rnd : ℚ → ℚ) (imp : Nat) (k : String) (j : Json) (l : LayerDoc) : Dec LayerDoc :=
  if k = "filter" then
    match unmarshalFilter j with
    | .error e => .error e
    | .ok f => .ok ({ l with filter := some f }, false)
  else if k = "id" then let r := strField l.id j; .ok ({ l with id := r.1 }, r.2)
  else if k = "minzoom" then let r := optNumField l.minZoom j; .ok ({ l with minZoom := r.1 }, r.2)
  else if k = "maxzoom" then let r := optNumField l.maxZoom j; .ok ({ l with maxZoom := r.1 }, r.2)
  else if k = "paint" then
    structField paintNames (paintField rnd imp) (l.paint.getD .zero) { l with paint := none } l (fun p => { l with paint := some p }) j
  else if k = "layout" then
    structField layoutNames layoutField l.layout l l (fun p => { l with layout := p }) j
  else if k = "source" then let r := strField l.source j; .ok ({ l with source := r.1 }, r.2)
  else if k = "source-layer" then let r := strField l.sourceLayer j; .ok ({ l with sourceLayer := r.1 }, r.2)
  else if k = "type" then let r := strField l.type j; .ok ({ l with type := r.1 }, r.2)
  else if k = "metadata" then .ok (l, !Ty.map .any j)
  else .ok (l, false)

/-- The names of the fields of `Layer`. style/layer.go:24-33. -/
def layerNames : List String :=
  ["filter", "id", "layout", "maxzoom", "metadata", "minzoom", "paint", "source", "source-layer", "type"]

/-- An element of `Layers []*Layer` (style/style.go:49) decoded over `old`: null is a nil pointer, a nil pointer is made to point to
a new layer. -/
def layerElem (rnd : ℚ → ℚ) (imp : Nat) (old : Option LayerDoc) (j : Json) : Dec (Option LayerDoc) :=
  structField layerNames (layerField rnd imp) (old.getD {}) none (some (old.getD {})) some j

/-- `Style` (style/style.go:45-60): the fields other functions of the package use. -/
structure StyleVal where
  id : String := ""
  version : Int := 0
  layers : List (Option LayerDoc) := []

/-- The other fields of `Style` (style/style.go:45-60, style/layer.go:54-71). -/
def styleTy (k : String) : Ty :=
  if k ∈ ["bearing", "pitch", "zoom"] then .num
  else if k = "center" then .list .num
  else if k ∈ ["glyphs", "name", "sprite"] then .str
  else if k = "light" then .struct ["anchor", "color", "intensity", "position"] fun k =>
    if k = "anchor" then .str else if k = "color" then .iface else if k = "intensity" then .num
    else if k = "position" then .list .num else .skip
  else if k = "metadata" then .map .any
  else if k = "sources" then .map (.struct ["type", "url"] fun k => if k = "type" ∨ k = "url" then .str else .skip)
  else if k = "transition" then .struct ["delay", "duration"] fun k => if k = "delay" ∨ k = "duration" then .int else .skip
  else .skip

/-- A field of `Style` (style/style.go:45-60). -/
def styleField (rnd : ℚ → ℚ) (imp : Nat) (k : String) (j : Json) (s : StyleVal) : Dec StyleVal :=
  if k = "layers" then
    match j with
    | .arr l =>
      match decOver (layerElem rnd imp) none s.layers l with
      | .error e => .error e
      | .ok (l, b) => .ok ({ s with layers := l }, b)
    | .null => .ok ({ s with layers := [] }, false)
    | _ => .ok (s, true)
  else if k = "id" then let r := strField s.id j; .ok ({ s with id := r.1 }, r.2)
  else if k = "version" then
    if Ty.int j then .ok (match j with | .num q => { s with version := q.int.getD 0 } | _ => s, false)
    else .ok (s, true)
  else .ok (s, !styleTy k j)

/-- The names of the fields of `Style`. style/style.go:46-59. -/
def styleNames : List String :=
  ["bearing", "center", "glyphs", "layers", "light", "metadata", "name", "pitch", "sources", "sprite", "transition", "version", "zoom",
   "id"]

/-- `calculateBackgroundColor` on parsed layers (style/style.go:27-38); a nil layer or paint is dereferenced. -/
def StyleVal.background (A : Arith ℚ) (s : StyleVal) : Except Fail (ColOut ℚ) :=
  match s.layers with
  | [] => .ok (.color (.rgba 255 255 255 255))
  | none :: _ => .error .panic
  | some l :: _ =>
    if l.id = "background" then
      match l.paint with
      | none => .error .panic
      | some p => (p.colour "background-color").at A 0
    else .ok (.color (.rgba 255 255 255 255))

/-- `dec.Decode(s)` (style/style.go:62-68): the style, or an error. -/
def decodeStyle (rnd : ℚ → ℚ) (imp : Nat) (j : Json) : Except Fail StyleVal :=
  finish (structField styleNames (styleField rnd imp) {} {} {} id j)

/-- `Parse` (style/style.go:62-76): the style and its background colour. The arithmetic `A` is that of the zoom functions. -/
def parseStyle (rnd : ℚ → ℚ) (imp : Nat) (A : Arith ℚ) (j : Json) : Except Fail (StyleVal × ColOut ℚ) :=
  match decodeStyle rnd imp j with
  | .error e => .error e
  | .ok s =>
    match s.background A with
    | .error e => .error e
    | .ok c => .ok (s, c)

end Verif.Style
