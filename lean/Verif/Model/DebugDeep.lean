import Verif.Model.Debug
import Verif.Model.Access
import Verif.Model.Serde

/-!
# The `Debug` of `dyn Reflect`

`impl Debug for dyn Reflect` (lib.rs:535-539) calls `Reflect::debug`, which every type implements in its own way.
The result is the tree of calls on the formatter down to plain text. How the formatter lays it out, `{:?}` or
`{:#?}`, is left out; every implementation passes `#` on and no other flag.
-/

namespace Mirror

/-- What is printed: as `Dbg`, all the way down. -/
inductive DTree
  | struct (name : String) (fields : List (String × DTree))
  | tuple (name : String) (fields : List DTree)
  | list (elems : List DTree)
  | map (entries : List (DTree × DTree))
  | text (s : String)
  | panic

/-- What printing depends on besides the value: which types are declared with `opt_out(Debug)` (macros attrs.rs:30,
81-83), the text of the `Debug` the other derived types bring along, `core::any::type_name`, and the `Debug` of
`char`, `str` and the floats in the standard library. -/
structure Printing where
  optOut : String → Bool
  user : String → Obj → String
  typeName : Ty → String
  char : Char → String
  str : String → String
  f32 : BitVec 32 → String
  f64 : BitVec 64 → String

/-- The `Debug` of a scalar (lib.rs:579-585, 651-657, 1208-1217): numbers are printed without their type. -/
def Printing.scalar (D : Printing) : Scalar → String
  | .int _ n => toString n
  | .bool b => if b then "true" else "false"
  | .char c => D.char c
  | .f32 b => D.f32 b
  | .f64 b => D.f64 b
  | .string s => D.str s

/-- The derived `Debug` of `Value` (value.rs:36-62), `StructValue` (struct_.rs:48-55), `TupleValue`
(tuple.rs:41-46), `TupleStructValue` (tuple_struct.rs:41-46) and `EnumValue` (enum_.rs:64-79): with `outer`
the `Value` itself, otherwise what its variant holds. -/
def Value.debug (D : Printing) (outer : Bool) : Value → DTree
  | .scalar s =>
    let p := DTree.text (D.scalar s)
    if outer then .tuple s.kind.variantName [p] else p
  | .struct ns fs =>
    let p := DTree.struct "StructValue" [("field_names", .list (ns.map fun n => .text (D.str n))),
      ("fields", .map (fs.map fun q => (.text (D.str q.1), q.2.debug D true)))]
    if outer then .tuple "StructValue" [p] else p
  | .enumS v ns fs =>
    let p := DTree.struct "EnumValue" [("name", .text (D.str v)),
      ("kind", .tuple "Struct" [.struct "StructValue" [("field_names", .list (ns.map fun n => .text (D.str n))),
        ("fields", .map (fs.map fun q => (.text (D.str q.1), q.2.debug D true)))]])]
    if outer then .tuple "EnumValue" [p] else p
  | .enumT v fs =>
    let p := DTree.struct "EnumValue" [("name", .text (D.str v)),
      ("kind", .tuple "Tuple" [.struct "TupleValue" [("fields", .list (fs.map fun x => x.debug D true))]])]
    if outer then .tuple "EnumValue" [p] else p
  | .enumU v =>
    let p := DTree.struct "EnumValue" [("name", .text (D.str v)), ("kind", .text "Unit")]
    if outer then .tuple "EnumValue" [p] else p
  | .tupleStruct fs =>
    let p := DTree.struct "TupleStructValue"
      [("tuple", .struct "TupleValue" [("fields", .list (fs.map fun x => x.debug D true))])]
    if outer then .tuple "TupleStructValue" [p] else p
  | .tuple fs =>
    let p := DTree.struct "TupleValue" [("fields", .list (fs.map fun x => x.debug D true))]
    if outer then .tuple "TupleValue" [p] else p
  | .list xs =>
    let p := DTree.list (xs.map fun x => x.debug D true)
    if outer then .tuple "List" [p] else p
  | .map kvs =>
    let p := DTree.map (kvs.map fun q => (q.1.debug D true, q.2.debug D true))
    if outer then .tuple "Map" [p] else p

/-- The type with which a derived tuple struct declares its field `i`. -/
def Env.tupleFieldTy (E : Env) (m : String) (i : Nat) : Option Ty :=
  match E.decl m with
  | some ⟨.tupleStruct fds, _⟩ => fds[i]?.map (·.ty)
  | _ => none

/-- The type with which a derived enum declares the field `n` of the variant `v`. -/
def Env.variantFieldTy (E : Env) (m v n : String) : Option Ty :=
  match E.decl m with
  | some ⟨.enum vds, _⟩ =>
    match vds.find? fun vd => vd.name == v with
    | some (.struct _ fds) => (fds.find? fun fd => fd.name == n).map (·.ty)
    | _ => none
  | _ => none

/-- The type with which a derived enum declares the field `i` of the variant `v`. -/
def Env.variantAtTy (E : Env) (m v : String) (i : Nat) : Option Ty :=
  match E.decl m with
  | some ⟨.enum vds, _⟩ =>
    match vds.find? fun vd => vd.name == v with
    | some (.tuple _ fds) => fds[i]?.map (·.ty)
    | _ => none
  | _ => none

/-- The Rust type of the references to named fields that `fields()` yields. Derived structs (macros
struct_named.rs:319), `StructValue` (struct_.rs:157-160) and struct variants of `EnumValue` (enum_.rs:292) give the
field as it is, derived enums (macros enum_.rs:638) call `as_reflect` on it. -/
def Obj.nameRefTy (E : Env) (o : Obj) (n : String) (x : Obj) : Option Ty :=
  match o with
  | .struct (.derived m) _ => E.structFieldTy m n
  | .struct (.dyn _) _ => some .value
  | .enumS (.dyn _) _ _ => some .value
  | .enumS (.derived m) v _ => (E.variantFieldTy m v n).bind x.reflTy
  | _ => none

/-- The Rust type of the references to fields and elements that `fields()` and `iter()` yield. Tuples give the
element as it is (tuple.rs:229-239); derived tuple structs (macros tuple_struct.rs:278), derived enums (macros
enum_.rs:657), `TupleValue` (tuple.rs:70-72), hence `TupleStructValue` and `EnumValue`, lists (vec.rs:48-50) and
arrays (array.rs:75-77) call `as_reflect` on it. -/
def Obj.posRefTy (E : Env) (o : Obj) (i : Nat) (x : Obj) : Option Ty :=
  match o with
  | .tupleStruct (.derived m) _ => (E.tupleFieldTy m i).bind x.reflTy
  | .enumT (.derived m) v _ => (E.variantAtTy m v i).bind x.reflTy
  | .tupleStruct .dyn _ => x.reflTy .value
  | .enumT .dyn _ _ => x.reflTy .value
  | .tuple .dyn _ => x.reflTy .value
  | .tuple (.typed ts) _ => ts[i]?
  | .vec t _ => x.reflTy t
  | .array t _ => x.reflTy t
  | _ => none

/-- The Rust types of the references to a key and its value that `Map::iter` yields (btree_map.rs:57-62). -/
def Obj.entryRefTy (o : Obj) (k x : Obj) : Option Ty × Option Ty :=
  match o with
  | .map kt vt _ => (k.reflTy kt, x.reflTy vt)
  | _ => (none, none)

/-- Everything a layer of debug output refers to is smaller than the value it is the output of. -/
def Dbg.Smaller (o : Obj) : Dbg → Prop
  | .struct _ fs => ∀ p ∈ fs, sizeOf p.2 < sizeOf o
  | .tuple _ fs => ∀ x ∈ fs, sizeOf x < sizeOf o
  | .list xs => ∀ x ∈ xs, sizeOf x < sizeOf o
  | .map kvs => ∀ p ∈ kvs, sizeOf p.1 < sizeOf o ∧ sizeOf p.2 < sizeOf o
  | _ => True

theorem Obj.posIter_smaller {o x : Obj} (h : x ∈ o.posIter) : sizeOf x < sizeOf o := by
  cases o <;> simp only [Obj.posIter, List.not_mem_nil] at h
  case vec => have := List.sizeOf_lt_of_mem h; simp; omega
  case array => have := List.sizeOf_lt_of_mem h; simp; omega
  all_goals
    have := List.sizeOf_lt_of_mem ((List.takeWhile_prefix _).subset h)
    simp; omega

theorem Obj.mapIter_smaller {o : Obj} {p : Obj × Obj} (h : p ∈ o.mapIter) :
    sizeOf p.1 < sizeOf o ∧ sizeOf p.2 < sizeOf o := by
  cases o <;> simp only [Obj.mapIter, List.not_mem_nil] at h
  have h1 := sizeOf_fst_lt_of_mem h
  have h2 := sizeOf_snd_lt_of_mem h
  simp; omega

theorem debugNamed_eq : ∀ (l : List (String × Obj)), debugNamed (l.map fun p => VField.struct p.1 p.2) = some l
  | [] => rfl
  | p :: r => by simp [debugNamed, debugNamed_eq r]

theorem debugPos_eq : ∀ (l : List Obj), debugPos (l.map VField.tuple) = some l
  | [] => rfl
  | p :: r => by simp [debugPos, debugPos_eq r]

theorem reflectDebug_smaller {nm : Obj → String} {o : Obj} {d : Dbg} (h : reflectDebug nm o = some d) :
    d.Smaller o := by
  cases o
  case enumS tag v fs =>
    simp only [reflectDebug, Obj.kind, Obj.variantKind, Obj.variantName, Obj.variantIter, debugNamed_eq, Option.map_some,
      Option.some.injEq] at h
    subst h
    exact fun p hp => Obj.namedIter_size hp
  case enumT tag v fs =>
    simp only [reflectDebug, Obj.kind, Obj.variantKind, Obj.variantName, Obj.variantIter, debugPos_eq, Option.map_some,
      Option.some.injEq] at h
    subst h
    exact fun p hp => Obj.posIter_smaller hp
  all_goals
    simp only [reflectDebug, Obj.kind, Obj.variantKind, Obj.variantName, Obj.asScalar, Option.map_some,
      Option.some.injEq] at h
    subst h
  case struct => exact fun p hp => Obj.namedIter_size hp
  case map => exact fun p hp => Obj.mapIter_smaller hp
  case tupleStruct => exact fun p hp => Obj.posIter_smaller hp
  case tuple => exact fun p hp => Obj.posIter_smaller hp
  case vec => exact fun p hp => Obj.posIter_smaller hp
  case array => exact fun p hp => Obj.posIter_smaller hp
  all_goals trivial

/-- The `type_name()` of the value inside a view (lib.rs:410-412). -/
def Printing.nameOf (D : Printing) (o : Obj) : String :=
  match o.typeOf with
  | some t => D.typeName t
  | none => ""

/-- `Reflect::debug` of a value of the Rust type `t`, for `some t`:

* scalars lib.rs:579-585, 651-657; `NonZero*` via_scalar.rs:59-65;
* derived types macros attrs.rs:129-147; with `opt_out(Debug)` `reflect_debug`, otherwise their own `Debug`;
* tuples tuple.rs:207-209: the name of the type, without the elements;
* `Vec` vec.rs:114-116; arrays array.rs:66-68; maps btree_map.rs:124-126; `Box` boxed.rs:75-77: `reflect_debug`;
* `Value` value.rs:306-312; `StructValue` struct_.rs:111-117; `TupleStructValue` tuple_struct.rs:99-105;
  `TupleValue` tuple.rs:121-127; `EnumValue` enum_.rs:240-246: their derived `Debug`.

For `none`, `reflect_debug` (lib.rs:1206-1296). The `panic`s stand for references without a type, which values of
a type do not have (C82_never_panics). -/
def debugAs (E : Env) (D : Printing) (m : Option Ty) (o : Obj) : DTree :=
  match m with
  | some (.scalar _) | some (.nonzero _) =>
    match o.asScalar with
    | some s => .text (D.scalar s)
    | none => .panic
  | some (.named n) => if D.optOut n then debugAs E D none o else .text (D.user n o)
  | some (.tuple ts) => .text (D.typeName (.tuple ts))
  | some (.vec _) | some (.array _ _) =>
    .list (o.posIter.attach.mapIdx fun i x =>
      match o.posRefTy E i x.1 with
      | some u => debugAs E D (some u) x.1
      | none => .panic)
  | some (.map _ _) =>
    .map (o.mapIter.attach.map fun p =>
      (match (o.entryRefTy p.1.1 p.1.2).1 with
        | some u => debugAs E D (some u) p.1.1
        | none => .panic,
       match (o.entryRefTy p.1.1 p.1.2).2 with
        | some u => debugAs E D (some u) p.1.2
        | none => .panic))
  | some (.box _) => debugAs E D none o
  | some .value => o.toValue.debug D true
  | some .structValue | some .tupleStructValue | some .tupleValue | some .enumValue => o.toValue.debug D false
  | none =>
    match _h : reflectDebug D.nameOf o with
    | some (.struct n fs) =>
      .struct n (fs.attach.map fun p => (p.1.1,
        match o.nameRefTy E p.1.1 p.1.2 with
        | some u => debugAs E D (some u) p.1.2
        | none => .panic))
    | some (.tuple n fs) =>
      .tuple n (fs.attach.mapIdx fun i x =>
      match o.posRefTy E i x.1 with
      | some u => debugAs E D (some u) x.1
      | none => .panic)
    | some (.list xs) => .list (xs.attach.mapIdx fun i x =>
      match o.posRefTy E i x.1 with
      | some u => debugAs E D (some u) x.1
      | none => .panic)
    | some (.map kvs) =>
      .map (kvs.attach.map fun p =>
        (match (o.entryRefTy p.1.1 p.1.2).1 with
        | some u => debugAs E D (some u) p.1.1
        | none => .panic,
       match (o.entryRefTy p.1.1 p.1.2).2 with
        | some u => debugAs E D (some u) p.1.2
        | none => .panic))
    | some (.scalar s) => .text (D.scalar s)
    | some (.text s) => .text s
    | none => .panic
termination_by (sizeOf o, if m.isSome then 1 else 0)
decreasing_by
  all_goals first
    | (apply Prod.Lex.right; simp; done)
    | exact Prod.Lex.left _ _ (Obj.posIter_smaller x.2)
    | exact Prod.Lex.left _ _ (Obj.mapIter_smaller p.2).1
    | exact Prod.Lex.left _ _ (Obj.mapIter_smaller p.2).2
    | exact Prod.Lex.left _ _ (reflectDebug_smaller _h _ x.2)
    | exact Prod.Lex.left _ _ (reflectDebug_smaller _h _ p.2)
    | exact Prod.Lex.left _ _ (reflectDebug_smaller _h _ p.2).1
    | exact Prod.Lex.left _ _ (reflectDebug_smaller _h _ p.2).2

end Mirror
