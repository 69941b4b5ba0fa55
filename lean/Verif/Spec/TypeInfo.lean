import Verif.Model.TypeInfo

/-!
# Specification: what a descriptor should say

Nothing here mentions how graphs are built.
-/

namespace Mirror

/-- A boxed type is described by its content. -/
def Ty.unbox : Ty → Ty
  | .box t => t.unbox
  | t => t

/-- The types a type is made of: declared fields that are not skipped, elements, keys and values, the
content of a box. -/
def Ty.comps (E : Env) : Ty → List Ty
  | .box t => [t]
  | .vec t => [t]
  | .array t _ => [t]
  | .map k v => [k, v]
  | .tuple ts => ts
  | .named n =>
    match E.decl n with
    | some ⟨.struct fds, _⟩ => (fds.filter fun fd => !fd.skip).map (·.ty)
    | some ⟨.tupleStruct fds, _⟩ => (fds.filter fun fd => !fd.skip).map (·.ty)
    | some ⟨.enum vds, _⟩ => vds.flatMap fun vd =>
        match vd with
        | .struct _ fds => (fds.filter fun fd => !fd.skip).map (·.ty)
        | .tuple _ fds => (fds.filter fun fd => !fd.skip).map (·.ty)
        | .unit _ => []
    | none => []
  | _ => []

/-- `u` is `t` or a component of a component ... of `t`. -/
inductive Ty.Reach (E : Env) (t : Ty) : Ty → Prop
  | refl : Reach E t t
  | step (u v) : Reach E t u → v ∈ u.comps E → Reach E t v

/-- Finitely many component types, all of them declared. -/
def Finite (E : Env) (t : Ty) : Prop :=
  ∃ S : List Ty, t ∈ S ∧ (∀ u ∈ S, ∀ v ∈ u.comps E, v ∈ S) ∧
    ∀ n, Ty.named n ∈ S → (E.decl n).isSome

/-- Tuple structs, enums and boxes. -/
def Ty.Eager (E : Env) : Ty → Prop
  | .box _ => True
  | .named n => (∃ fds c, E.decl n = some ⟨.tupleStruct fds, c⟩) ∨
      ∃ vds c, E.decl n = some ⟨.enum vds, c⟩
  | _ => False

/-- `u` is a component of the tuple struct, enum or box `t`. -/
def Ty.EagerComp (E : Env) (u t : Ty) : Prop := t.Eager E ∧ u ∈ t.comps E

/-- The node describes a variant: same name, and its fields in declaration order. -/
inductive DescribesVariant : VariantDef → VariantNode → Prop
  | struct (n fds names fields) :
      namedTypes names fields =
        ((fds.filter fun fd => !fd.skip).map fun fd => (fd.name, some fd.ty.unbox)) →
      fields.length = (fds.filter fun fd => !fd.skip).length → BMSorted strCmp fields →
      DescribesVariant (.struct n fds) (.struct n names fields)
  | tuple (n fds) : DescribesVariant (.tuple n fds)
      (.tuple n ((fds.filter fun fd => !fd.skip).map fun fd => fd.ty.unbox))
  | unit (n) : DescribesVariant (.unit n) (.unit n)

/-- The node is exactly the declaration of the type: fields in declaration order with their names and
types, variants in declaration order, lengths, element, key and value types. For structs,
`fields_len` is the number of fields, and the map `fields` is strictly sorted by name. -/
inductive Describes (E : Env) : Ty → TypeNode → Prop
  | scalar (k) : Describes E (.scalar k) (.scalar k)
  | nonzero (k) : Describes E (.nonzero k) .opaque
  | value : Describes E .value .opaque
  | structValue : Describes E .structValue .opaque
  | tupleStructValue : Describes E .tupleStructValue .opaque
  | tupleValue : Describes E .tupleValue .opaque
  | enumValue : Describes E .enumValue .opaque
  | vec (t) : Describes E (.vec t) (.list t.unbox)
  | array (t n) : Describes E (.array t n) (.array t.unbox n)
  | map (k v) : Describes E (.map k v) (.map k.unbox v.unbox)
  | tuple (ts) : Describes E (.tuple ts) (.tuple (ts.map Ty.unbox))
  | struct (n fds c names fields) : E.decl n = some ⟨.struct fds, c⟩ →
      namedTypes names fields =
        ((fds.filter fun fd => !fd.skip).map fun fd => (fd.name, some fd.ty.unbox)) →
      fields.length = (fds.filter fun fd => !fd.skip).length → BMSorted strCmp fields →
      Describes E (.named n) (.struct names fields)
  | tupleStruct (n fds c) : E.decl n = some ⟨.tupleStruct fds, c⟩ →
      Describes E (.named n) (.tupleStruct ((fds.filter fun fd => !fd.skip).map fun fd => fd.ty.unbox))
  | enum (n vds c vs) : E.decl n = some ⟨.enum vds, c⟩ → vs.length = vds.length →
      (∀ (i : Nat) vd v, vds[i]? = some vd → vs[i]? = some v → DescribesVariant vd v) →
      Describes E (.named n) (.enum vs)

/-- The ids a node refers to: everything `get_type`, `element_type`, `key_type` and `value_type` can be
asked for. -/
def VariantNode.ids : VariantNode → List Ty
  | .struct _ _ fields => fields.map (·.2)
  | .tuple _ fields => fields
  | .unit _ => []

/-- The ids a node refers to. -/
def TypeNode.ids : TypeNode → List Ty
  | .struct _ fields => fields.map (·.2)
  | .tupleStruct fields => fields
  | .tuple fields => fields
  | .enum vs => vs.flatMap VariantNode.ids
  | .list t => [t]
  | .array t _ => [t]
  | .map k v => [k, v]
  | .scalar _ => []
  | .opaque => []

/-- The ids reachable by navigation from `root` in a graph. -/
inductive Nav (g : TypeGraph) (root : Ty) : Ty → Prop
  | root : Nav g root root
  | step (i n j) : Nav g root i → g.node i = some n → j ∈ n.ids → Nav g root j

end Mirror
