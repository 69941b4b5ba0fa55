import Verif.Model.Access
import Verif.Spec.Parts

/-!
# Specification: kinds of values, fields by key
-/

namespace Mirror

/-- The values of type `t` are of this kind (`Value`, and `Box<Value>`, can be of any kind but array). -/
inductive Ty.HasKind (E : Env) : Ty → Kind → Prop
  | scalar (k) : HasKind E (.scalar k) .scalar
  | nonzero (k) : HasKind E (.nonzero k) .scalar
  | struct (n fds c) : E.decl n = some ⟨.struct fds, c⟩ → HasKind E (.named n) .struct
  | tupleStruct (n fds c) : E.decl n = some ⟨.tupleStruct fds, c⟩ → HasKind E (.named n) .tupleStruct
  | enum (n vds c) : E.decl n = some ⟨.enum vds, c⟩ → HasKind E (.named n) .enum
  | tuple (ts) : HasKind E (.tuple ts) .tuple
  | vec (t) : HasKind E (.vec t) .list
  | array (t n) : HasKind E (.array t n) .array
  | map (k v) : HasKind E (.map k v) .map
  | box (t k) : HasKind E t k → HasKind E (.box t) k
  | structValue : HasKind E .structValue .struct
  | tupleStructValue : HasKind E .tupleStructValue .tupleStruct
  | tupleValue : HasKind E .tupleValue .tuple
  | enumValue : HasKind E .enumValue .enum
  | value (k) : k ≠ .array → k ≠ .opaque → HasKind E .value k

/-- Of the nine accessors of a view, the one for kind `k` gives something and no other does. -/
def View.Only (v : View) (k : Kind) : Prop :=
  (v.asStruct.isSome ↔ k = .struct) ∧ (v.asTupleStruct.isSome ↔ k = .tupleStruct) ∧
  (v.asTuple.isSome ↔ k = .tuple) ∧ (v.asEnum.isSome ↔ k = .enum) ∧
  (v.asArray.isSome ↔ k = .array) ∧ (v.asList.isSome ↔ k = .list) ∧
  (v.asMap.isSome ↔ k = .map) ∧ (v.asScalar.isSome ↔ k = .scalar) ∧
  (v.asOpaque.isSome ↔ k = .opaque)

/-- The type of some content: not `Value` and not `Box<_>`. -/
def Ty.Concrete : Ty → Prop
  | .value | .box _ => False
  | _ => True

/-- `y` is the reflected field named `n` of a struct or struct variant. -/
inductive FieldNamed : Obj → String → Obj → Prop
  | struct (tag fs n y) : (n, y) ∈ fs → y.isHidden = false → FieldNamed (.struct tag fs) n y
  | enum (tag v fs n y) : (n, y) ∈ fs → y.isHidden = false → FieldNamed (.enumS tag v fs) n y

/-- `y` is the reflected field, or element, at declared position `i`. -/
inductive FieldAt : Obj → Nat → Obj → Prop
  | tupleStruct (tag fs i y) : fs[i]? = some y → y.isHidden = false → FieldAt (.tupleStruct tag fs) i y
  | tuple (tag fs i y) : fs[i]? = some y → FieldAt (.tuple tag fs) i y
  | enumT (tag v fs i y) : fs[i]? = some y → y.isHidden = false → FieldAt (.enumT tag v fs) i y
  | enumS (n v fs i m y) : fs[i]? = some (m, y) → y.isHidden = false →
      FieldAt (.enumS (.derived n) v fs) i y
  | enumDyn (ns v fs i m y) : ns[i]? = some m → (m, y) ∈ fs → FieldAt (.enumS (.dyn ns) v fs) i y
  | vec (t xs i y) : xs[i]? = some y → FieldAt (.vec t xs) i y
  | array (t xs i y) : xs[i]? = some y → FieldAt (.array t xs) i y

/-- `y` is the value of the map at a key equal to `k`, once `k` is converted to the key type. -/
inductive EntryAt (E : Env) : Obj → Obj → Obj → Prop
  | map (kt vt kvs k k' p) : fromReflect E kt k = some k' → p ∈ kvs → E.kcmp kt k' p.1 = .eq →
      EntryAt E (.map kt vt kvs) k p.2

/-- `Value`, possibly boxed. -/
def Ty.Bare : Ty → Prop
  | .value => True
  | .box t => t.Bare
  | _ => False

/-- A reference to `y` shows the type `t`: the type of its content. But if it is a bare reference to a `Value`,
and that holds a struct or an enum, what shows is `Box<StructValue>` or `Box<EnumValue>` instead. -/
inductive Reveals (E : Env) (bare : Prop) : Ty → Obj → Prop
  | content (t y) : HasTy E t y → t.Concrete → (bare → t ≠ .structValue ∧ t ≠ .enumValue) → Reveals E bare t y
  | struct (y) : bare → HasTy E .structValue y → Reveals E bare (.box .structValue) y
  | enum (y) : bare → HasTy E .enumValue y → Reveals E bare (.box .enumValue) y

/-- The part of a value under this key is handed out as a bare reference to a `Value`: the fields of a
`StructValue`, of a dynamic struct variant, and the fields of derived structs and elements of tuples that are
declared as `Value`s. -/
inductive BareKey (E : Env) : Obj → Key → Prop
  | structValue (ns fs n) : BareKey E (.struct (.dyn ns) fs) (.named n)
  | enumValue (ns v fs n) : BareKey E (.enumS (.dyn ns) v fs) (.named n)
  | enumValueAt (ns v fs i) : BareKey E (.enumS (.dyn ns) v fs) (.numbered i)
  | struct (m fds c fs fd) : E.decl m = some ⟨.struct fds, c⟩ → fd ∈ fds → fd.ty.Bare →
      BareKey E (.struct (.derived m) fs) (.named fd.name)
  | tuple (ts fs i t) : ts[i]? = some t → t.Bare → BareKey E (.tuple (.typed ts) fs) (.numbered i)

/-- The last step of the path is to such a part. -/
def BarePath (E : Env) (o : Obj) (p : KeyPath) : Prop :=
  ∃ q k x, p = q ++ [k] ∧ atPath E o q = some x ∧ BareKey E x k

/-- No zero inside any `NonZero` integer, at any depth. -/
def Obj.NoZero : Obj → Prop :=
  Obj.Everywhere fun o => ∀ k n, o = .nonzero k n → n ≠ 0

end Mirror
