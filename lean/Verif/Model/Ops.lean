import Verif.Model.Access

/-!
# Operators on `dyn Reflect`
-/

namespace Mirror

/-- `PartialEq for dyn Reflect` (lib.rs:541-545): `reflect_eq` with "don't know" read as "no". -/
def dynEq (E : Env) (a b : Obj) : Bool := (reflectEq E a b).getD false

/-- `ToOwned for dyn Reflect` (lib.rs:527-533); `none` is the panic of `clone_reflect`. -/
def Obj.toOwned (E : Env) (x : Obj) : Option Obj := cloneReflect E x

/-- `Clone for ReflectOwned` (lib.rs:802-817); `none` is the panic of `clone_reflect`. -/
def View.clone (E : Env) : View → Option View
  | .struct o => (cloneReflect E o).map Obj.reflectOwned
  | .tupleStruct o => (cloneReflect E o).map Obj.reflectOwned
  | .tuple o => (cloneReflect E o).map Obj.reflectOwned
  | .enum o => (cloneReflect E o).map Obj.reflectOwned
  | .array o => (cloneReflect E o).map Obj.reflectOwned
  | .list o => (cloneReflect E o).map Obj.reflectOwned
  | .map o => (cloneReflect E o).map Obj.reflectOwned
  | .opaque o => (cloneReflect E o).map Obj.reflectOwned
  | .scalar s => some (.scalar s)

end Mirror
