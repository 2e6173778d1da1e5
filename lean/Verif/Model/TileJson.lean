/-!
# Model of tilejson/utils.go

`reflect` is modelled by what the two functions look at.  `reflectx.Deref`/`Indirect` follow pointers to the end.
-/
namespace Verif.TileJson

/-- the kinds the switch tells apart (tilejson/utils.go:19-27) -/
inductive Kind
  | int | int8 | int16 | int32 | int64 | uint | uint8 | uint16 | uint32 | uint64 | float32 | float64
  | string | bool
  | uintptr | complex64 | complex128 | array | chan | func | interface | map | pointer | slice | struct | unsafePointer
  deriving DecidableEq, Repr

/-- tilejson/tilejson.go:49-55 -/
inductive FieldType | string | number | boolean
  deriving DecidableEq, Repr

/-- A struct field: the value of its `name` tag (`none`: no such tag), its kind, its value, and whether it is exported.
Go library reflect, for tilejson/utils.go:9-50. -/
structure Field (α : Type) where
  tag : Option String
  kind : Kind
  value : α
  exported : Bool

/-- What an `interface{}` holds: nothing, a struct, a pointer (nil, with what it would point to as type, or not), or
another kind of value. Go library reflect, for tilejson/utils.go:9-50. -/
inductive Val (α : Type)
  | nil
  | struct (fields : List (Field α))
  | ptr (isNil : Bool) (to : Val α)
  | other

/-- A Go map: the value of each key. Go language, for tilejson/utils.go:9-50. -/
abbrev Map (β : Type) := String → Option β

/-- Go language, for tilejson/utils.go:9-50. -/
def Map.empty {β : Type} : Map β := fun _ => none
/-- Go language, for tilejson/utils.go:9-50. -/
def Map.set {β : Type} (m : Map β) (k : String) (v : β) : Map β := fun x => if x = k then some v else m x

/-- the switch (tilejson/utils.go:19-27) -/
def fieldType : Kind → Option FieldType
  | .int | .int8 | .int16 | .int32 | .int64 | .uint | .uint8 | .uint16 | .uint32 | .uint64 | .float32 | .float64 => some .number
  | .string => some .string
  | .bool => some .boolean
  | _ => none

/-- `reflectx.Deref(reflect.TypeOf(v))` (tilejson/utils.go:10-13): the type behind the pointers. Outer `none`: panic (the type
of a nil interface is nil); inner `none`: not a struct. -/
def derefType {α : Type} : Val α → Option (Option (List (Field α)))
  | .nil => none
  | .struct fs => some (some fs)
  | .ptr _ v => derefType v
  | .other => some none

/-- `reflectx.Indirect(reflect.ValueOf(v))` (tilejson/utils.go:36-39): the value behind the pointers; a nil pointer or interface
gives the invalid value, which is not a struct. -/
def indirect {α : Type} : Val α → Option (List (Field α))
  | .nil => none
  | .struct fs => some fs
  | .ptr true _ => none
  | .ptr false v => indirect v
  | .other => none

/-- one turn of the loop (tilejson/utils.go:15-29) -/
def fieldStep {α : Type} (m : Map FieldType) (f : Field α) : Map FieldType :=
  match f.tag with
  | none => m
  | some n =>
    match fieldType f.kind with
    | some t => m.set n t
    | none => m

/-- `StructToFields` (tilejson/utils.go:9-32): `none` panic, `some none` nil, else the map. -/
def structToFields {α : Type} (v : Val α) : Option (Option (Map FieldType)) :=
  match derefType v with
  | none => none
  | some none => some none
  | some (some fs) => some (some (fs.foldl fieldStep Map.empty))

/-- one turn of the loop (tilejson/utils.go:42-48); `Interface()` panics on an unexported field -/
def propStep {α : Type} (m : Option (Map α)) (f : Field α) : Option (Map α) :=
  match m with
  | none => none
  | some m =>
    match f.tag with
    | none => some m
    | some n => if f.exported then some (m.set n f.value) else none

/-- `StructToProperties` (tilejson/utils.go:35-50). -/
def structToProperties {α : Type} (v : Val α) : Option (Option (Map α)) :=
  match indirect v with
  | none => some none
  | some fs => (fs.foldl propStep (some Map.empty)).map some

end Verif.TileJson
