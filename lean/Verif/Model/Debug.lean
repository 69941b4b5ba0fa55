import Verif.Model.Containers

/-!
# Debug output

`reflect_debug` (lib.rs:1206-1296): which calls it makes on the formatter. Fields, elements, keys and values
are passed on as objects; how they print is their own `Debug`.
-/

namespace Mirror

/-- The calls on `Formatter`: `debug_struct(name)` with `field(name, value)` calls, `debug_tuple(name)` with
`field(value)` calls, `debug_list`, `debug_map`, the `Debug` of a scalar, or plain text. -/
inductive Dbg
  | struct (name : String) (fields : List (String × Obj))
  | tuple (name : String) (fields : List Obj)
  | list (elems : List Obj)
  | map (entries : List (Obj × Obj))
  | scalar (s : Scalar)
  | text (s : String)

/-- The loop over the fields of a struct variant (lib.rs:1243-1252); `none` is the `unreachable!`. -/
def debugNamed : List VField → Option (List (String × Obj))
  | [] => some []
  | .struct n x :: r => (debugNamed r).map ((n, x) :: ·)
  | .tuple _ :: _ => none

/-- The loop over the fields of a tuple variant (lib.rs:1257-1266); `none` is the `unreachable!`. -/
def debugPos : List VField → Option (List Obj)
  | [] => some []
  | .struct _ _ :: _ => none
  | .tuple x :: r => (debugPos r).map (x :: ·)

/-- `reflect_debug` (lib.rs:1206-1296); `none` is a panic. `nm` gives `type_name()`. -/
def reflectDebug (nm : Obj → String) (o : Obj) : Option Dbg :=
  match o.kind with
  | .struct => some (.struct (nm o) o.namedIter)
  | .tupleStruct => some (.tuple (nm o) o.posIter)
  | .tuple => some (.tuple "" o.posIter)
  | .enum =>
    match o.variantKind, o.variantName with
    | some .struct, some v => (debugNamed o.variantIter).map (.struct v)
    | some .tuple, some v => (debugPos o.variantIter).map (.tuple v)
    | some .unit, some v => some (.text v)
    | _, _ => none
  | .array => some (.list o.posIter)
  | .list => some (.list o.posIter)
  | .map => some (.map o.mapIter)
  | .scalar => o.asScalar.map .scalar
  | .opaque => some (.text (nm o))

end Mirror
