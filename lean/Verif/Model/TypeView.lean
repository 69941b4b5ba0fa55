import Verif.Model.TypePath

/-!
# The views of a type descriptor

`Type`, `StructType`, `EnumType`, `Variant`, ... (type_info/mod.rs): pairs of a node and the graph it is in.
Every node but a scalar's comes with its id (`WithId`, graph.rs:36-53). `none` is a panic where an accessor
of the code returns a plain value, and `None` where it returns an `Option`.

Type names are not stored in the nodes of the model; `N t` is `type_name::<t>()`, which is what every
`XNode::new::<t>` stores (graph.rs:137-155, 180-194, 208-222, 325-339, 407-462, 517-526). Metadata, docs and
defaults are in `Model/Meta.lean` and `Model/Default.lean`.
-/

namespace Mirror

/-- `NamedField` (type_info/mod.rs:1209-1213). -/
structure NamedField where
  name : String
  id : Ty
  graph : TypeGraph

/-- `UnnamedField` (type_info/mod.rs:1193-1197). -/
structure UnnamedField where
  id : Ty
  graph : TypeGraph

/-- `StructType` (type_info/mod.rs:663-667). -/
structure StructType where
  id : Ty
  names : List String
  fields : List (String × Ty)
  graph : TypeGraph

/-- `TupleStructType` (type_info/mod.rs:726-730). -/
structure TupleStructType where
  id : Ty
  fields : List Ty
  graph : TypeGraph

/-- `TupleType` (type_info/mod.rs:781-785). -/
structure TupleType where
  id : Ty
  fields : List Ty
  graph : TypeGraph

/-- `EnumType` (type_info/mod.rs:836-840). -/
structure EnumType where
  id : Ty
  variants : List VariantNode
  graph : TypeGraph

/-- `ListType` (type_info/mod.rs:1276-1280). -/
structure ListType where
  id : Ty
  elem : Ty
  graph : TypeGraph

/-- `ArrayType` (type_info/mod.rs:1229-1233). -/
structure ArrayType where
  id : Ty
  elem : Ty
  len : Nat
  graph : TypeGraph

/-- `MapType` (type_info/mod.rs:1311-1315). -/
structure MapType where
  id : Ty
  key : Ty
  val : Ty
  graph : TypeGraph

/-- `OpaqueType` (type_info/mod.rs:1350-1354). -/
structure OpaqueType where
  id : Ty
  graph : TypeGraph

/-- `Type` (type_info/mod.rs:181-192). `ScalarType` (590-609) has no node. -/
inductive TypeView
  | struct (t : StructType)
  | tupleStruct (t : TupleStructType)
  | tuple (t : TupleType)
  | enum (t : EnumType)
  | list (t : ListType)
  | array (t : ArrayType)
  | map (t : MapType)
  | scalar (k : ScalarKind)
  | opaque (t : OpaqueType)

/-- `Type::new` (type_info/mod.rs:195-275); `none` is the panic of `TypeGraph::get`. -/
def TypeView.new (g : TypeGraph) (id : Ty) : Option TypeView :=
  match g.node id with
  | none => none
  | some (.struct names fields) => some (.struct ⟨id, names, fields, g⟩)
  | some (.tupleStruct fields) => some (.tupleStruct ⟨id, fields, g⟩)
  | some (.tuple fields) => some (.tuple ⟨id, fields, g⟩)
  | some (.enum vs) => some (.enum ⟨id, vs, g⟩)
  | some (.list el) => some (.list ⟨id, el, g⟩)
  | some (.array el n) => some (.array ⟨id, el, n, g⟩)
  | some (.map k v) => some (.map ⟨id, k, v, g⟩)
  | some (.scalar k) => some (.scalar k)
  | some .opaque => some (.opaque ⟨id, g⟩)

/-- `TypeDescriptor::get_type` (type_info/mod.rs:112-114). -/
def TypeDescriptor.getType (d : TypeDescriptor) : Option TypeView := TypeView.new d.graph d.root

/-- `NamedField::get_type` (type_info/mod.rs:1220-1222). -/
def NamedField.getType (f : NamedField) : Option TypeView := TypeView.new f.graph f.id

/-- `UnnamedField::get_type` (type_info/mod.rs:1200-1202). -/
def UnnamedField.getType (f : UnnamedField) : Option TypeView := TypeView.new f.graph f.id

/-! ## Structs -/

/-- `StructType::field_types` (type_info/mod.rs:674-682); an item is `none` if computing it panics. -/
def StructType.fieldTypes (s : StructType) : List (Option NamedField) :=
  s.names.map fun n => (bmGet strCmp n s.fields).map fun id => ⟨n, id, s.graph⟩

/-- `StructType::fields_len` (type_info/mod.rs:684-686). -/
def StructType.fieldsLen (s : StructType) : Nat := s.fields.length

/-- `StructType::field_type` (type_info/mod.rs:688-694). The `name` of a field node is the key it is stored
under (graph.rs:147-151). -/
def StructType.fieldType (s : StructType) (n : String) : Option NamedField :=
  (bmGet strCmp n s.fields).map fun id => ⟨n, id, s.graph⟩

/-- `StructType::field_type_at` (type_info/mod.rs:696-699). -/
def StructType.fieldTypeAt (s : StructType) (i : Nat) : Option NamedField :=
  s.names[i]?.bind s.fieldType

/-- `StructType::type_name` (type_info/mod.rs:670-672). -/
def StructType.typeName (N : Ty → String) (s : StructType) : String := N s.id

/-- `StructType::into_type_descriptor` (type_info/mod.rs:705-710). -/
def StructType.intoTypeDescriptor (s : StructType) : TypeDescriptor := ⟨s.id, s.graph⟩

/-! ## Tuple structs and tuples -/

/-- `TupleStructType::field_types` (type_info/mod.rs:737-742). -/
def TupleStructType.fieldTypes (t : TupleStructType) : List UnnamedField :=
  t.fields.map fun id => ⟨id, t.graph⟩

/-- `TupleStructType::fields_len` (type_info/mod.rs:744-746). -/
def TupleStructType.fieldsLen (t : TupleStructType) : Nat := t.fields.length

/-- `TupleStructType::field_type_at` (type_info/mod.rs:748-754). -/
def TupleStructType.fieldTypeAt (t : TupleStructType) (i : Nat) : Option UnnamedField :=
  t.fields[i]?.map fun id => ⟨id, t.graph⟩

/-- `TupleStructType::type_name` (type_info/mod.rs:733-735). -/
def TupleStructType.typeName (N : Ty → String) (t : TupleStructType) : String := N t.id

/-- `TupleStructType::into_type_descriptor` (type_info/mod.rs:760-765). -/
def TupleStructType.intoTypeDescriptor (t : TupleStructType) : TypeDescriptor := ⟨t.id, t.graph⟩

/-- `TupleType::field_types` (type_info/mod.rs:792-797). -/
def TupleType.fieldTypes (t : TupleType) : List UnnamedField := t.fields.map fun id => ⟨id, t.graph⟩

/-- `TupleType::fields_len` (type_info/mod.rs:799-801). -/
def TupleType.fieldsLen (t : TupleType) : Nat := t.fields.length

/-- `TupleType::field_type_at` (type_info/mod.rs:803-809). -/
def TupleType.fieldTypeAt (t : TupleType) (i : Nat) : Option UnnamedField :=
  t.fields[i]?.map fun id => ⟨id, t.graph⟩

/-- `TupleType::type_name` (type_info/mod.rs:788-790). -/
def TupleType.typeName (N : Ty → String) (t : TupleType) : String := N t.id

/-- `TupleType::into_type_descriptor` (type_info/mod.rs:815-820). -/
def TupleType.intoTypeDescriptor (t : TupleType) : TypeDescriptor := ⟨t.id, t.graph⟩

/-! ## Enums and variants -/

/-- `StructVariant` (type_info/mod.rs:1041-1046). -/
structure StructVariant where
  name : String
  names : List String
  fields : List (String × Ty)
  enumId : Ty
  enumVariants : List VariantNode
  graph : TypeGraph

/-- `TupleVariant` (type_info/mod.rs:1105-1110). -/
structure TupleVariant where
  name : String
  fields : List Ty
  enumId : Ty
  enumVariants : List VariantNode
  graph : TypeGraph

/-- `UnitVariant` (type_info/mod.rs:1161-1166). -/
structure UnitVariant where
  name : String
  enumId : Ty
  enumVariants : List VariantNode
  graph : TypeGraph

/-- `Variant` (type_info/mod.rs:900-905). -/
inductive VariantView
  | struct (v : StructVariant)
  | tuple (v : TupleVariant)
  | unit (v : UnitVariant)

/-- `EnumType::variants` (type_info/mod.rs:847-865). -/
def EnumType.variantViews (e : EnumType) : List VariantView :=
  e.variants.map fun v =>
    match v with
    | .struct n names fields => .struct ⟨n, names, fields, e.id, e.variants, e.graph⟩
    | .tuple n fields => .tuple ⟨n, fields, e.id, e.variants, e.graph⟩
    | .unit n => .unit ⟨n, e.id, e.variants, e.graph⟩

/-- `EnumType::variants_len` (type_info/mod.rs:867-869). -/
def EnumType.variantsLen (e : EnumType) : Nat := e.variants.length

/-- `Variant::name` (type_info/mod.rs:908-914, 1049-1051, 1113-1115, 1169-1171). -/
def VariantView.name : VariantView → String
  | .struct v => v.name
  | .tuple v => v.name
  | .unit v => v.name

/-- `EnumType::variant` (type_info/mod.rs:871-873). -/
def EnumType.variant (e : EnumType) (n : String) : Option VariantView :=
  e.variantViews.find? fun v => v.name = n

/-- `EnumType::type_name` (type_info/mod.rs:843-845). -/
def EnumType.typeName (N : Ty → String) (e : EnumType) : String := N e.id

/-- `EnumType::into_type_descriptor` (type_info/mod.rs:879-884). -/
def EnumType.intoTypeDescriptor (e : EnumType) : TypeDescriptor := ⟨e.id, e.graph⟩

/-- `StructVariant::enum_type` (type_info/mod.rs:1084-1089). -/
def StructVariant.enumType (v : StructVariant) : EnumType := ⟨v.enumId, v.enumVariants, v.graph⟩

/-- `TupleVariant::enum_type` (type_info/mod.rs:1140-1145). -/
def TupleVariant.enumType (v : TupleVariant) : EnumType := ⟨v.enumId, v.enumVariants, v.graph⟩

/-- `UnitVariant::enum_type` (type_info/mod.rs:1177-1182). -/
def UnitVariant.enumType (v : UnitVariant) : EnumType := ⟨v.enumId, v.enumVariants, v.graph⟩

/-- `Variant::enum_type` (type_info/mod.rs:956-962). -/
def VariantView.enumType : VariantView → EnumType
  | .struct v => v.enumType
  | .tuple v => v.enumType
  | .unit v => v.enumType

/-- `Variant::type_name` (type_info/mod.rs:916-922, 1053-1055, 1117-1119, 1173-1175). -/
def VariantView.typeName (N : Ty → String) : VariantView → String
  | .struct v => v.enumType.typeName N
  | .tuple v => v.enumType.typeName N
  | .unit v => v.enumType.typeName N

/-- `StructVariant::field_types` (type_info/mod.rs:1057-1065). -/
def StructVariant.fieldTypes (v : StructVariant) : List (Option NamedField) :=
  v.names.map fun n => (bmGet strCmp n v.fields).map fun id => ⟨n, id, v.graph⟩

/-- `StructVariant::fields_len` (type_info/mod.rs:1067-1069). -/
def StructVariant.fieldsLen (v : StructVariant) : Nat := v.fields.length

/-- `StructVariant::field_type` (type_info/mod.rs:1071-1077). -/
def StructVariant.fieldType (v : StructVariant) (n : String) : Option NamedField :=
  (bmGet strCmp n v.fields).map fun id => ⟨n, id, v.graph⟩

/-- `StructVariant::field_type_at` (type_info/mod.rs:1079-1082). -/
def StructVariant.fieldTypeAt (v : StructVariant) (i : Nat) : Option NamedField :=
  v.names[i]?.bind v.fieldType

/-- `TupleVariant::field_types` (type_info/mod.rs:1121-1126). -/
def TupleVariant.fieldTypes (v : TupleVariant) : List UnnamedField :=
  v.fields.map fun id => ⟨id, v.graph⟩

/-- `TupleVariant::fields_len` (type_info/mod.rs:1128-1130). -/
def TupleVariant.fieldsLen (v : TupleVariant) : Nat := v.fields.length

/-- `TupleVariant::field_type_at` (type_info/mod.rs:1132-1138). -/
def TupleVariant.fieldTypeAt (v : TupleVariant) (i : Nat) : Option UnnamedField :=
  v.fields[i]?.map fun id => ⟨id, v.graph⟩

/-- `VariantField` (type_info/mod.rs:1003-1007). -/
inductive VariantField
  | named (f : NamedField)
  | unnamed (f : UnnamedField)

/-- `VariantField::get_type` (type_info/mod.rs:1010-1015). -/
def VariantField.getType : VariantField → Option TypeView
  | .named f => f.getType
  | .unnamed f => f.getType

/-- `VariantField::name` (type_info/mod.rs:1017-1022). -/
def VariantField.name : VariantField → Option String
  | .named f => some f.name
  | .unnamed _ => none

/-- `Variant::field_types` (type_info/mod.rs:924-931). -/
def VariantView.fieldTypes : VariantView → List (Option VariantField)
  | .struct v => v.fieldTypes.map (Option.map .named)
  | .tuple v => v.fieldTypes.map fun f => some (.unnamed f)
  | .unit _ => []

/-- `Variant::fields_len` (type_info/mod.rs:933-939). -/
def VariantView.fieldsLen : VariantView → Nat
  | .struct v => v.fieldsLen
  | .tuple v => v.fieldsLen
  | .unit _ => 0

/-- `Variant::field_type` (type_info/mod.rs:941-946). -/
def VariantView.fieldType (w : VariantView) (n : String) : Option NamedField :=
  match w with
  | .struct v => v.fieldType n
  | .tuple _ | .unit _ => none

/-- `Variant::field_type_at` (type_info/mod.rs:948-954). -/
def VariantView.fieldTypeAt (w : VariantView) (i : Nat) : Option VariantField :=
  match w with
  | .struct v => (v.fieldTypeAt i).map .named
  | .tuple v => (v.fieldTypeAt i).map .unnamed
  | .unit _ => none

/-! ## Lists, arrays, maps, opaque types -/

/-- `ListType::element_type` (type_info/mod.rs:1287-1289). -/
def ListType.elementType (t : ListType) : Option TypeView := TypeView.new t.graph t.elem

/-- `ListType::type_name` (type_info/mod.rs:1283-1285). -/
def ListType.typeName (N : Ty → String) (t : ListType) : String := N t.id

/-- `ListType::into_type_descriptor` (type_info/mod.rs:1295-1300). -/
def ListType.intoTypeDescriptor (t : ListType) : TypeDescriptor := ⟨t.id, t.graph⟩

/-- `ArrayType::element_type` (type_info/mod.rs:1240-1242). -/
def ArrayType.elementType (t : ArrayType) : Option TypeView := TypeView.new t.graph t.elem

/-- `ArrayType::is_empty` (type_info/mod.rs:1248-1250). -/
def ArrayType.isEmpty (t : ArrayType) : Bool := t.len == 0

/-- `ArrayType::type_name` (type_info/mod.rs:1236-1238). -/
def ArrayType.typeName (N : Ty → String) (t : ArrayType) : String := N t.id

/-- `ArrayType::into_type_descriptor` (type_info/mod.rs:1256-1261). -/
def ArrayType.intoTypeDescriptor (t : ArrayType) : TypeDescriptor := ⟨t.id, t.graph⟩

/-- `MapType::key_type` (type_info/mod.rs:1322-1324). -/
def MapType.keyType (t : MapType) : Option TypeView := TypeView.new t.graph t.key

/-- `MapType::value_type` (type_info/mod.rs:1326-1328). -/
def MapType.valueType (t : MapType) : Option TypeView := TypeView.new t.graph t.val

/-- `MapType::type_name` (type_info/mod.rs:1318-1320). -/
def MapType.typeName (N : Ty → String) (t : MapType) : String := N t.id

/-- `MapType::into_type_descriptor` (type_info/mod.rs:1334-1339). -/
def MapType.intoTypeDescriptor (t : MapType) : TypeDescriptor := ⟨t.id, t.graph⟩

/-- `OpaqueType::type_name` (type_info/mod.rs:1357-1359). -/
def OpaqueType.typeName (N : Ty → String) (t : OpaqueType) : String := N t.id

/-- `OpaqueType::into_type_descriptor` (type_info/mod.rs:1365-1370). -/
def OpaqueType.intoTypeDescriptor (t : OpaqueType) : TypeDescriptor := ⟨t.id, t.graph⟩

/-! ## `Type` -/

/-- `Type::as_struct` (type_info/mod.rs:364-369, 128-130). -/
def TypeView.asStruct : TypeView → Option StructType
  | .struct t => some t
  | _ => none

/-- `Type::as_tuple_struct` (type_info/mod.rs:371-376, 132-134). -/
def TypeView.asTupleStruct : TypeView → Option TupleStructType
  | .tupleStruct t => some t
  | _ => none

/-- `Type::as_tuple` (type_info/mod.rs:378-383, 136-138). -/
def TypeView.asTuple : TypeView → Option TupleType
  | .tuple t => some t
  | _ => none

/-- `Type::as_enum` (type_info/mod.rs:385-390, 140-142). -/
def TypeView.asEnum : TypeView → Option EnumType
  | .enum t => some t
  | _ => none

/-- `Type::as_array` (type_info/mod.rs:392-397, 144-146). -/
def TypeView.asArray : TypeView → Option ArrayType
  | .array t => some t
  | _ => none

/-- `Type::as_list` (type_info/mod.rs:399-404, 148-150). -/
def TypeView.asList : TypeView → Option ListType
  | .list t => some t
  | _ => none

/-- `Type::as_map` (type_info/mod.rs:406-411, 152-154). -/
def TypeView.asMap : TypeView → Option MapType
  | .map t => some t
  | _ => none

/-- `Type::as_scalar` (type_info/mod.rs:413-418, 156-158). -/
def TypeView.asScalar : TypeView → Option ScalarKind
  | .scalar k => some k
  | _ => none

/-- `Type::as_opaque` (type_info/mod.rs:420-425, 160-162). -/
def TypeView.asOpaque : TypeView → Option OpaqueType
  | .opaque t => some t
  | _ => none

/-- `Type::type_name` (type_info/mod.rs:277-289, 116-118); scalars 612-631. -/
def TypeView.typeName (N : Ty → String) : TypeView → String
  | .struct t => t.typeName N
  | .tupleStruct t => t.typeName N
  | .tuple t => t.typeName N
  | .enum t => t.typeName N
  | .list t => t.typeName N
  | .array t => t.typeName N
  | .map t => t.typeName N
  | .scalar k => N (.scalar k)
  | .opaque t => t.typeName N

/-- `Type::into_type_descriptor` (type_info/mod.rs:333-362). The descriptor of a scalar type is computed
afresh. -/
def TypeView.intoTypeDescriptor (E : Env) : TypeView → Option TypeDescriptor
  | .struct t => some t.intoTypeDescriptor
  | .tupleStruct t => some t.intoTypeDescriptor
  | .tuple t => some t.intoTypeDescriptor
  | .enum t => some t.intoTypeDescriptor
  | .list t => some t.intoTypeDescriptor
  | .array t => some t.intoTypeDescriptor
  | .map t => some t.intoTypeDescriptor
  | .scalar k => describe E 1 (.scalar k)
  | .opaque t => some t.intoTypeDescriptor

/-- `into_type_info_at_path` (type_info/mod.rs:291-303). -/
def TypeView.atPath : TypeView → TypeAt
  | .struct t => .ty t.id (.struct t.names t.fields)
  | .tupleStruct t => .ty t.id (.tupleStruct t.fields)
  | .tuple t => .ty t.id (.tuple t.fields)
  | .enum t => .ty t.id (.enum t.variants)
  | .list t => .ty t.id (.list t.elem)
  | .array t => .ty t.id (.array t.elem t.len)
  | .map t => .ty t.id (.map t.key t.val)
  | .scalar k => .ty (.scalar k) (.scalar k)
  | .opaque t => .ty t.id .opaque

end Mirror
