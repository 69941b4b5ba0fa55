import Verif.Model.Obj

/-!
# The front end of `#[derive(Reflect)]`

The grammar of `#[reflect(..)]` on items, variants and fields, read from token trees (attrs.rs), the check for
`HashMap`, the choice of the expansion (mod.rs), and the commas of the struct literals that the generated
`from_reflect` builds.

An `Err` is a compile error; the model keeps only that there is one (`none`). Files without a path are in
crates/mirror-mirror-macros/src/derive_reflect.

Parsing of Rust expressions, use-trees and the list of reserved words belong to `syn`; they are parameters.
`syn` reports tokens left over in a group when the group's buffer is dropped, so a group must be read to its
end.
-/

namespace Mirror

/-- A token tree: identifiers (keywords among them), `,`, `=`, `(..)`, anything else. -/
inductive Tok
  | ident (s : String)
  | comma
  | eq
  | paren (ts : List Tok)
  | other (s : String)
  deriving Repr, Inhabited

/-- What is taken from `syn`: `reserved s`, that `Ident::parse` refuses `s`; the number of tokens
`Expr::parse` and `UseTree::parse` read from the front of a stream, if they succeed. -/
structure SynParsers where
  reserved : String → Bool
  expr : List Tok → Option Nat
  useTree : List Tok → Option Nat

/-- `let _ = input.parse::<Token![,]>()`: a comma is dropped if there is one (attrs.rs:94, 111, 122, 339,
346, 351). -/
def skipComma : List Tok → List Tok
  | .comma :: r => r
  | r => r

theorem skipComma_le (ts : List Tok) : (skipComma ts).length ≤ ts.length := by
  unfold skipComma; split <;> simp

/-- `ItemAttrs` (attrs.rs:28-36). -/
structure ItemAttrs where
  debugOptOut : Bool
  cloneOptOut : Bool
  fromReflectOptOut : Bool
  crateName : List Tok
  pairs : List (String × List Tok)
  docs : List String

/-- `ItemAttrs::new` (attrs.rs:39-48). -/
def ItemAttrs.new (docs : List String) : ItemAttrs :=
  ⟨false, false, false, [.ident "mirror_mirror"], [], docs⟩

/-- `InnerAttrs` (attrs.rs:280-285). -/
structure InnerAttrs where
  skip : Bool
  pairs : List (String × List Tok)
  docs : List String
  fromReflectWith : Option String

/-- `InnerAttrs::new` (attrs.rs:288-295). -/
def InnerAttrs.new (docs : List String) : InnerAttrs := ⟨false, [], docs, none⟩

/-- The loop over the content of `opt_out(..)` (attrs.rs:79-95). -/
def optOutLoop : List Tok → ItemAttrs → Option ItemAttrs
  | [], a => some a
  | .ident s :: r, a =>
    if s = "Debug" then optOutLoop (skipComma r) { a with debugOptOut := true }
    else if s = "Clone" then optOutLoop (skipComma r) { a with cloneOptOut := true }
    else if s = "FromReflect" then optOutLoop (skipComma r) { a with fromReflectOptOut := true }
    else none
  | _ :: _, _ => none
  termination_by ts => ts.length
  decreasing_by all_goals (have := skipComma_le r; simp; omega)

/-- The loop over the content of `meta(..)` (attrs.rs:100-112, 328-340). A key given before is an error. -/
def metaLoop (P : SynParsers) : List Tok → List (String × List Tok) → Option (List (String × List Tok))
  | [], m => some m
  | .ident k :: .eq :: r, m =>
    if P.reserved k then none
    else
      match P.expr r with
      | none => none
      | some n =>
        match bmGet strCmp k m with
        | some _ => none
        | none => metaLoop P (skipComma (r.drop n)) (bmInsert strCmp k (r.take n) m)
  | _ :: _, _ => none
  termination_by ts => ts.length
  decreasing_by (have := skipComma_le (r.drop n); simp at *; omega)

/-- The loop over the content of `#[reflect(..)]` on an item (attrs.rs:72-123). -/
def itemLoop (P : SynParsers) : List Tok → ItemAttrs → Option ItemAttrs
  | [], a => some a
  | .ident s :: .paren c :: r, a =>
    if s = "opt_out" then
      match optOutLoop c a with
      | none => none
      | some a => itemLoop P (skipComma r) a
    else if s = "meta" then
      match metaLoop P c a.pairs with
      | none => none
      | some m => itemLoop P (skipComma r) { a with pairs := m }
    else if s = "crate_name" then
      match P.useTree c with
      | none => none
      | some n =>
        if c.drop n = [] then itemLoop P (skipComma r) { a with crateName := c.take n } else none
    else none
  | _ :: _, _ => none
  termination_by ts => ts.length
  decreasing_by all_goals (have := skipComma_le r; simp; omega)

/-- The content of `from_reflect_with(..)`: an identifier, and perhaps a comma (attrs.rs:342-346). -/
def withContent (P : SynParsers) : List Tok → Option String
  | .ident f :: r =>
    if P.reserved f then none
    else if skipComma r = [] then some f
    else none
  | _ => none

/-- The loop over the content of `#[reflect(..)]` on a variant or a field (attrs.rs:319-352). -/
def innerLoop (P : SynParsers) : List Tok → InnerAttrs → Option InnerAttrs
  | [], a => some a
  | .ident s :: r, a =>
    if s = "skip" then innerLoop P (skipComma r) { a with skip := true }
    else
      match r with
      | .paren c :: r' =>
        if s = "meta" then
          match metaLoop P c a.pairs with
          | none => none
          | some m => innerLoop P (skipComma r') { a with pairs := m }
        else if s = "from_reflect_with" then
          match withContent P c with
          | none => none
          | some f => innerLoop P (skipComma r') { a with fromReflectWith := some f }
        else none
      | _ => none
  | _ :: _, _ => none
  termination_by ts => ts.length
  decreasing_by
    · have := skipComma_le r; simp; omega
    · have := skipComma_le r'; simp; omega
    · have := skipComma_le r'; simp; omega

/-- What an attribute consists of beside its path: nothing, a token stream in delimiters, `= "text"`, or
`=` and another expression, of which the identifiers are kept. -/
inductive AttrBody
  | path
  | list (ts : List Tok)
  | text (s : String)
  | value (idents : List String)
  deriving Repr, Inhabited

/-- An attribute: the segments of its path, and the rest. -/
structure SAttr where
  path : List String
  body : AttrBody
  deriving Repr, Inhabited

/-- `attr.meta.path().is_ident(s)`. -/
def SAttr.isIdent (a : SAttr) (s : String) : Bool := a.path == [s]

/-- `parse_docs` (attrs.rs:176-191). -/
def docLines (as : List SAttr) : List String :=
  (as.filter fun a => a.isIdent "doc").filterMap fun a =>
    match a.body with
    | .text s => some s
    | _ => none

/-- `attr.parse_args_with(..)`: the attribute has arguments in delimiters. -/
def SAttr.args (a : SAttr) : Option (List Tok) :=
  match a.body with
  | .list ts => some ts
  | _ => none

/-- `ItemAttrs::parse` (attrs.rs:50-127). -/
def parseItem (P : SynParsers) (as : List SAttr) : Option ItemAttrs :=
  match as.filter fun a => a.isIdent "reflect" with
  | [] => some (.new (docLines as))
  | [a] => a.args.bind fun ts => itemLoop P ts (.new (docLines as))
  | _ => none

/-- `InnerAttrs::parse` (attrs.rs:297-356). -/
def parseInner (P : SynParsers) (as : List SAttr) : Option InnerAttrs :=
  match as.filter fun a => a.isIdent "reflect" with
  | [] => some (.new (docLines as))
  | [a] => a.args.bind fun ts => innerLoop P ts (.new (docLines as))
  | _ => none

/-! ## Items -/

/-- A field as parsed: its attributes, its name (`""` in tuples), its type, and the identifiers in its
visibility and type. -/
structure SField where
  attrs : List SAttr
  name : String
  ty : Ty
  idents : List String

/-- `syn::Fields`. -/
inductive SFields
  | named (fs : List SField)
  | unnamed (fs : List SField)
  | unit

/-- The list of fields. -/
def SFields.list : SFields → List SField
  | .named fs => fs
  | .unnamed fs => fs
  | .unit => []

/-- A variant as parsed; `idents` are those in its discriminant. -/
structure SVariant where
  attrs : List SAttr
  name : String
  fields : SFields
  idents : List String

/-- `syn::Data`. -/
inductive SData
  | struct (fs : SFields)
  | enum (vs : List SVariant)
  | union (fs : List SField)

/-- `syn::DeriveInput`; `idents` are those in its visibility, generics and where-clause. -/
structure SItem where
  attrs : List SAttr
  name : String
  idents : List String
  data : SData

/-- The identifiers `syn::visit` meets in an attribute: those of its path, and of the expression of
`#[a = e]`. The tokens of `#[a(..)]` are not visited. -/
def SAttr.idents (a : SAttr) : List String :=
  a.path ++ match a.body with
    | .value l => l
    | _ => []

/-- The identifiers in a field. Positions of tuples have no name. -/
def SField.allIdents (f : SField) (named : Bool) : List String :=
  f.attrs.flatMap SAttr.idents ++ f.idents ++ if named then [f.name] else []

/-- The identifiers in fields. -/
def SFields.idents : SFields → List String
  | .named fs => fs.flatMap fun f => f.allIdents true
  | .unnamed fs => fs.flatMap fun f => f.allIdents false
  | .unit => []

/-- The identifiers in a variant. -/
def SVariant.allIdents (v : SVariant) : List String :=
  v.attrs.flatMap SAttr.idents ++ [v.name] ++ v.fields.idents ++ v.idents

/-- The identifiers in an item, in the order of no interest. -/
def SItem.allIdents (it : SItem) : List String :=
  it.attrs.flatMap SAttr.idents ++ it.idents ++ [it.name] ++
    match it.data with
    | .struct fs => fs.idents
    | .enum vs => vs.flatMap SVariant.allIdents
    | .union fs => fs.flatMap fun f => f.allIdents true

/-- `check_for_known_unsupported_types` (mod.rs:93-115). -/
def checkUnsupported (it : SItem) : Option Unit :=
  if "HashMap" ∈ it.allIdents then none else some ()

/-- A field with its parsed attributes. -/
structure PField where
  field : SField
  attrs : InnerAttrs

/-- The field of the declaration the rest of the model works with. -/
def PField.def (f : PField) : FieldDef := ⟨f.field.name, f.field.ty, f.attrs.skip⟩

/-- `AttrsDatabase::new_from_named`, `new_from_unnamed` (attrs.rs:208-240) and the fields in
`VariantData::try_from_enum` (enum_.rs:955-1005): the attributes of each field, skipped or not. The database is
looked up by field only, so attributes are kept with their field. -/
def parseFields (P : SynParsers) (fs : List SField) : Option (List PField) :=
  fs.mapM fun f => (parseInner P f.attrs).map fun a => ⟨f, a⟩

/-- How `from_reflect` gets at a field (struct_named.rs:197-236, tuple_struct.rs:198-235,
enum_.rs:363-403, 408-445). -/
inductive FieldInit
  | default
  | call (f : String)
  | convert
  | downcastOrConvert
  deriving Repr, Inhabited, DecidableEq

/-- The branch taken in the loops just cited. -/
def PField.init (cloneOptOut : Bool) (f : PField) : FieldInit :=
  if f.attrs.skip then .default
  else
    match f.attrs.fromReflectWith with
    | some g => .call g
    | none => if cloneOptOut then .convert else .downcastOrConvert

/-- Tokens of a struct literal or a call: an initialiser, or a comma. -/
inductive InitTok
  | init (i : FieldInit)
  | comma
  deriving Repr, Inhabited, DecidableEq

/-- What is emitted for a field of a struct (struct_named.rs:202-235) or of a variant (enum_.rs:366-402,
410-444). -/
def initTokens (i : FieldInit) : List InitTok := [.init i, .comma]

/-- What is emitted for a field of a tuple struct (tuple_struct.rs:205-234). After a call of a
`from_reflect_with` function there is no comma (tuple_struct.rs:210-215). -/
def initTokensTuple : FieldInit → List InitTok
  | .call g => [.init (.call g)]
  | i => [.init i, .comma]

/-- The parts of an expansion that the attributes decide. -/
structure Derived where
  shape : Shape
  attrs : ItemAttrs
  /-- The list of initialisers in the literals of the generated `from_reflect`, one for each variant that is
  not skipped; empty if it is not generated. -/
  literals : List (List InitTok)

/-- A variant with its parsed attributes. -/
structure PVariant where
  variant : SVariant
  attrs : InnerAttrs
  fields : List PField

/-- `VariantData::try_from_enum` (enum_.rs:955-1005). -/
def parseVariants (P : SynParsers) (vs : List SVariant) : Option (List PVariant) :=
  vs.mapM fun v =>
    (parseFields P v.fields.list).bind fun fs => (parseInner P v.attrs).map fun a => ⟨v, a, fs⟩

/-- The variant of the declaration the rest of the model works with. -/
def PVariant.def (v : PVariant) : VariantDef :=
  match v.variant.fields with
  | .named _ => .struct v.variant.name (v.fields.map PField.def)
  | .unnamed _ => .tuple v.variant.name (v.fields.map PField.def)
  | .unit => .unit v.variant.name

/-- The literals of `from_reflect`; none with `opt_out(FromReflect)` (struct_named.rs:28-29,
tuple_struct.rs:28-29, enum_.rs:24-25). -/
def literalsOf (a : ItemAttrs) (ls : List (List InitTok)) : List (List InitTok) :=
  if a.fromReflectOptOut then [] else ls

/-- `expand` (mod.rs:20-91): attributes of the item, the check for `HashMap`, then by kind of item. Unit
structs are expanded as structs without fields. -/
def derive (P : SynParsers) (it : SItem) : Option Derived :=
  (parseItem P it.attrs).bind fun a =>
  (checkUnsupported it).bind fun _ =>
    match it.data with
    | .struct (.named fs) => (parseFields P fs).map fun fs =>
        ⟨.struct (fs.map PField.def), a,
          literalsOf a [fs.flatMap fun f => initTokens (f.init a.cloneOptOut)]⟩
    | .struct (.unnamed fs) => (parseFields P fs).map fun fs =>
        ⟨.tupleStruct (fs.map PField.def), a,
          literalsOf a [fs.flatMap fun f => initTokensTuple (f.init a.cloneOptOut)]⟩
    | .struct .unit => some ⟨.struct [], a, literalsOf a [[]]⟩
    | .enum vs => (parseVariants P vs).map fun vs =>
        let vis := vs.filter fun v => !v.attrs.skip
        ⟨.enum (vis.map PVariant.def), a,
          literalsOf a (vis.map fun v => v.fields.flatMap fun f => initTokens (f.init a.cloneOptOut))⟩
    | .union _ => none

end Mirror
