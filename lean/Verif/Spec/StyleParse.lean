import Verif.Model.StyleParse

/-!
# Specification for C69: which style documents are accepted, and what they mean

`Json.sane`: all numbers of the value are in the range of float64. Otherwise only the data types of the model (`Json`, `NumProp`, `ColVal`, `LayerDoc` ...), the colour strings of C52, C53, C62 (`strToColor`) and the
filters of C56 (`unmarshalFilter`) are used.
-/
namespace Verif.Style

/-- Names that are equal up to the case of letters (`K` for Kelvin is a k and the long s an s). -/
def SameName (a b : String) : Prop := Doc.fold a.toList = Doc.fold b.toList

instance (a b : String) : Decidable (SameName a b) := by unfold SameName; infer_instance

/-- The value of the first member of an object called `k`, up to case. -/
def given (k : String) (fs : List (String × Json)) : Option Json := (fs.find? fun p => SameName p.1 k).map Prod.snd

/-- The member `k` of an object, null when it is missing. -/
def member (k : String) (fs : List (String × Json)) : Json := (given k fs).getD .null

/-- No two members have the same name, up to case. -/
def Distinct (fs : List (String × Json)) : Prop := fs.Pairwise fun p q => ¬ SameName p.1 q.1

def IsStr (j : Json) : Prop := ∃ s, j = .str s
def IsNum (j : Json) : Prop := ∃ q, j = .num q

/-- null, or as required. -/
def OrNull (P : Json → Prop) (j : Json) : Prop := j = .null ∨ P j

/-- An array whose elements are as required. -/
def ArrOf (P : Json → Prop) (j : Json) : Prop := ∃ l, j = .arr l ∧ ∀ e ∈ l, P e

/-- An object whose members are as required of their names, up to case. -/
def ObjOf (P : String → Json → Prop) (j : Json) : Prop := ∃ fs, j = .obj fs ∧ ∀ p ∈ fs, ∀ k, SameName p.1 k → P k p.2

/-- A number that spells an int. -/
def IsInt (j : Json) : Prop := ∃ q n, j = .num q ∧ q.int = some n

/-- A stop of a numeric function: `[zoom, value, ...]`. -/
def IsNumStop (j : Json) : Prop := ∃ z v more, j = .arr (.num z :: .num v :: more)

/-- A number, or an object with stops and base. -/
def FitNumber (j : Json) : Prop :=
  j.sane = true ∧ (IsNum j ∨ ObjOf (fun k j =>
    (k = "stops" → OrNull (ArrOf IsNumStop) j) ∧ (k = "base" → OrNull IsNum j) ∧ (k = "type" → OrNull IsStr j)) j)

/-- The string is a colour. -/
def Colour (rnd : ℚ → ℚ) (s : String) : Prop := ∃ c, strToColor rnd s.toList 255 = .ok c

/-- A stop of a colour function: `[zoom, colour, ...]`. -/
def IsColStop (rnd : ℚ → ℚ) (j : Json) : Prop := ∃ z s more, j = .arr (.num z :: .str s :: more) ∧ Colour rnd s

/-- A colour string, or an object with stops and base. -/
def FitColour (rnd : ℚ → ℚ) (j : Json) : Prop :=
  j.sane = true ∧ ((∃ s, j = .str s ∧ Colour rnd s) ∨ ObjOf (fun k j =>
    (k = "stops" → OrNull (ArrOf (OrNull (IsColStop rnd))) j) ∧ (k = "base" → OrNull IsNum j)) j)

/-- An acceptable `paint`. -/
def FitPaint (rnd : ℚ → ℚ) : Json → Prop := ObjOf fun k j =>
  (k ∈ ["background-color", "fill-color", "line-color", "fill-outline-color", "text-color", "text-halo-color"] →
    OrNull (FitColour rnd) j) ∧
  (k ∈ ["fill-opacity", "line-gap-width", "line-opacity", "line-width"] → OrNull FitNumber j) ∧
  (k = "line-dasharray" → OrNull (ArrOf (OrNull IsNum)) j) ∧
  (k ∈ ["line-offset", "text-halo-blur", "text-halo-width"] → OrNull IsNum j) ∧
  (k ∈ ["fill-antialias", "fill-translate", "fill-pattern"] → j.sane = true)

/-- An acceptable `layout`. -/
def FitLayout : Json → Prop := ObjOf fun k j =>
  (k ∈ ["text-size", "icon-size"] → OrNull FitNumber j) ∧
  (k ∈ ["visibility", "line-cap", "line-join", "text-field", "text-rotation-alignment", "text-transform", "text-anchor",
    "icon-image"] → OrNull IsStr j) ∧
  (k = "text-font" → OrNull (ArrOf (OrNull IsStr)) j) ∧
  (k ∈ ["text-letter-spacing", "text-max-width", "symbol-spacing", "text-padding"] → OrNull IsNum j) ∧
  (k = "text-offset" → OrNull (ArrOf (OrNull IsNum)) j) ∧
  (k = "symbol-placement" → j.sane = true)

/-- An acceptable layer. A filter, when given, must be one: null is not. -/
def FitLayer (rnd : ℚ → ℚ) : Json → Prop := ObjOf fun k j =>
  (k = "filter" → ∃ f, unmarshalFilter j = .ok f) ∧
  (k ∈ ["id", "source", "source-layer", "type"] → OrNull IsStr j) ∧
  (k ∈ ["minzoom", "maxzoom"] → OrNull IsNum j) ∧
  (k = "paint" → OrNull (FitPaint rnd) j) ∧
  (k = "layout" → OrNull FitLayout j) ∧
  (k = "metadata" → OrNull (ObjOf fun _ j => j.sane = true) j)

/-- An acceptable style. Only null is accepted for the colour of the light. -/
def FitStyle (rnd : ℚ → ℚ) : Json → Prop := OrNull <| ObjOf fun k j =>
  (k = "layers" → OrNull (ArrOf (OrNull (FitLayer rnd))) j) ∧
  (k ∈ ["glyphs", "name", "sprite", "id"] → OrNull IsStr j) ∧
  (k ∈ ["bearing", "pitch", "zoom"] → OrNull IsNum j) ∧
  (k = "version" → OrNull IsInt j) ∧
  (k = "center" → OrNull (ArrOf (OrNull IsNum)) j) ∧
  (k = "metadata" → OrNull (ObjOf fun _ j => j.sane = true) j) ∧
  (k = "sources" → OrNull (ObjOf fun _ => OrNull (ObjOf fun k j => k ∈ ["type", "url"] → OrNull IsStr j)) j) ∧
  (k = "transition" → OrNull (ObjOf fun k j => k ∈ ["delay", "duration"] → OrNull IsInt j) j) ∧
  (k = "light" → OrNull (ObjOf fun k j => (k = "anchor" → OrNull IsStr j) ∧ (k = "color" → j = .null) ∧
    (k = "intensity" → OrNull IsNum j) ∧ (k = "position" → OrNull (ArrOf (OrNull IsNum)) j)) j)

/-! ## Meaning -/

/-- A string member: "" when missing or null. -/
def MeansStr (j : Json) (s : String) : Prop := j = .str s ∨ j = .null ∧ s = ""

/-- An optional number. -/
def MeansOptNum (j : Json) (q : Option ℚ) : Prop := (∃ v, j = .num v ∧ q = some v.val) ∨ j = .null ∧ q = none

/-- The stops of an object, in order. -/
def MeansStops (j : Json) (l : List (NumStop ℚ)) : Prop :=
  (∃ js, j = .arr js ∧ List.Forall₂ (fun j s => ∃ z v more, j = .arr (.num z :: .num v :: more) ∧ s = ⟨z.val, v.val⟩) js l) ∨
  j = .null ∧ l = []

/-- What a number or zoom function means. -/
def MeansNumber (j : Json) (p : NumProp ℚ) : Prop :=
  match p with
  | .absent => j = .null
  | .plain q => ∃ n, j = .num n ∧ q = n.val
  | .fn stops base => ∃ fs, j = .obj fs ∧ (Distinct fs → MeansStops (member "stops" fs) stops ∧ MeansOptNum (member "base" fs) base)

/-- The stops of a colour function, in order; null is a missing stop. -/
def MeansColStops (rnd : ℚ → ℚ) (imp : Nat) (j : Json) (l : List (Option (ColStop ℚ))) : Prop :=
  (∃ js, j = .arr js ∧ List.Forall₂ (fun j s =>
    match s with
    | none => j = .null
    | some s => ∃ z str c more, j = .arr (.num z :: .str str :: more) ∧ strToColor rnd str.toList 255 = .ok c ∧
      s = ⟨z.val, c.color imp⟩) js l) ∨
  j = .null ∧ l = []

/-- What a colour or zoom function means. -/
def MeansColour (rnd : ℚ → ℚ) (imp : Nat) (j : Json) (p : ColVal) : Prop :=
  match p with
  | .absent => j = .null
  | .plain c => ∃ s c', j = .str s ∧ strToColor rnd s.toList 255 = .ok c' ∧ c = c'.color imp
  | .stops st base => ∃ fs, j = .obj fs ∧
      (Distinct fs → MeansColStops rnd imp (member "stops" fs) st ∧ MeansOptNum (member "base" fs) base)

/-- What a paint means: each colour and number property is that of its member. -/
def MeansPaint (rnd : ℚ → ℚ) (imp : Nat) (fs : List (String × Json)) (p : Paint) : Prop :=
  Distinct fs →
    (∀ k ∈ ["background-color", "fill-color", "line-color", "fill-outline-color", "text-color", "text-halo-color"],
      MeansColour rnd imp (member k fs) (p.colour k)) ∧
    (∀ k ∈ ["fill-opacity", "line-gap-width", "line-opacity", "line-width"], MeansNumber (member k fs) (p.number k))

/-- What a layer means. -/
def MeansLayer (rnd : ℚ → ℚ) (imp : Nat) (fs : List (String × Json)) (l : LayerDoc) : Prop :=
  Distinct fs →
    MeansStr (member "id" fs) l.id ∧ MeansStr (member "source" fs) l.source ∧
    MeansStr (member "source-layer" fs) l.sourceLayer ∧ MeansStr (member "type" fs) l.type ∧
    MeansOptNum (member "minzoom" fs) l.minZoom ∧ MeansOptNum (member "maxzoom" fs) l.maxZoom ∧
    (∀ f, l.filter = some f → unmarshalFilter (member "filter" fs) = .ok f) ∧
    (l.filter = none → given "filter" fs = none) ∧
    (match l.paint with
      | none => member "paint" fs = .null
      | some p => ∃ ps, member "paint" fs = .obj ps ∧ MeansPaint rnd imp ps p) ∧
    (member "layout" fs = .null ∧ (∀ k, l.layout k = .absent) ∨
      ∃ ls, member "layout" fs = .obj ls ∧ (Distinct ls → ∀ k ∈ ["text-size", "icon-size"], MeansNumber (member k ls) (l.layout k)))

/-- What a style means: its layers are those of the document, in order; null is a nil layer. -/
def MeansStyle (rnd : ℚ → ℚ) (imp : Nat) (fs : List (String × Json)) (s : StyleVal) : Prop :=
  Distinct fs →
    MeansStr (member "id" fs) s.id ∧
    ((∃ q, member "version" fs = .num q ∧ q.int = some s.version) ∨ member "version" fs = .null ∧ s.version = 0) ∧
    ((∃ js, member "layers" fs = .arr js ∧ List.Forall₂ (fun j l =>
        match l with
        | none => j = .null
        | some l => ∃ fs, j = .obj fs ∧ MeansLayer rnd imp fs l) js s.layers) ∨
      member "layers" fs = .null ∧ s.layers = [])

end Verif.Style
