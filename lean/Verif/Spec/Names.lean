import Verif.Model.Names
import Verif.Spec.TypeInfo

/-!
# Specification: type text, simplified types, pretty printed declarations
-/

namespace Mirror

/-- The Rust text of a literal. -/
def SynLit.text : SynLit → String
  | .int d => d
  | .float d => d
  | .bool true => "true"
  | .bool false => "false"
  | .other s => s

/-- The Rust text of an expression. -/
def SynExpr.text : SynExpr → String
  | .lit l => l.text
  | .other s => s

mutual
/-- The Rust text of any type, in full. -/
def SynTy.text : SynTy → String
  | .array elem len => "[" ++ elem.text ++ "; " ++ len.text ++ "]"
  | .path qself lead segs =>
    (match qself with | some q => "<" ++ q ++ ">::" | none => "") ++
      (if lead then "::" else "") ++ "::".intercalate (segTexts segs)
  | .tuple [t] => "(" ++ t.text ++ ",)"
  | .tuple elems => "(" ++ ", ".intercalate (tyTexts elems) ++ ")"
  | .ref lt m elem =>
    "&" ++ (match lt with | some l => "'" ++ l ++ " " | none => "") ++
      (if m then "mut " else "") ++ elem.text
  | .other s => s
/-- One after the other. -/
def tyTexts : List SynTy → List String
  | [] => []
  | t :: ts => t.text :: tyTexts ts
/-- One after the other. -/
def segTexts : List SynSeg → List String
  | [] => []
  | s :: ss => s.text :: segTexts ss
/-- `ident` or `ident<args>`. -/
def SynSeg.text : SynSeg → String
  | .mk ident args => ident ++ args.text
/-- Generic arguments. -/
def SynArgs.text : SynArgs → String
  | .none => ""
  | .angle args => "<" ++ ", ".intercalate (argTexts args) ++ ">"
  | .paren s => s
/-- One after the other. -/
def argTexts : List SynArg → List String
  | [] => []
  | a :: as => a.text :: argTexts as
/-- A generic argument. -/
def SynArg.text : SynArg → String
  | .ty t => t.text
  | .const e => e.text
  | .other s => s
end

/-- The literals that can be array lengths and const arguments of a printable type. -/
def SynExpr.Plain : SynExpr → Prop
  | .lit (.int _) | .lit (.float _) | .lit (.bool _) => True
  | _ => False

mutual
/-- `t'` is `t` with every path cut down to its last segment, at every depth, and without lifetimes of
references. There is no such type for syntax that is not supported. -/
inductive Simplifies : SynTy → SynTy → Prop
  | array (e e' len) : Simplifies e e' → len.Plain → Simplifies (.array e len) (.array e' len)
  | path (lead init ident args args') : SimplifiesArgs args args' →
      Simplifies (.path none lead (init ++ [.mk ident args])) (.path none false [.mk ident args'])
  | tuple (ts ts') : SimplifiesAll ts ts' → Simplifies (.tuple ts) (.tuple ts')
  | ref (lt m e e') : Simplifies e e' → Simplifies (.ref lt m e) (.ref none m e')
/-- For generic arguments. -/
inductive SimplifiesArgs : SynArgs → SynArgs → Prop
  | none : SimplifiesArgs .none .none
  | angle (as as') : SimplifiesEach as as' → SimplifiesArgs (.angle as) (.angle as')
/-- For a list of types. -/
inductive SimplifiesAll : List SynTy → List SynTy → Prop
  | nil : SimplifiesAll [] []
  | cons (t t' ts ts') : Simplifies t t' → SimplifiesAll ts ts' → SimplifiesAll (t :: ts) (t' :: ts')
/-- For a list of generic arguments: types and constants, no lifetimes or associated items. -/
inductive SimplifiesEach : List SynArg → List SynArg → Prop
  | nil : SimplifiesEach [] []
  | ty (t t' as as') : Simplifies t t' → SimplifiesEach as as' →
      SimplifiesEach (.ty t :: as) (.ty t' :: as')
  | const (e as as') : e.Plain → SimplifiesEach as as' →
      SimplifiesEach (.const e :: as) (.const e :: as')
end

/-! ## Pretty printed declarations -/

/-- The fields that are not skipped. -/
def shownFields (fds : List FieldDef) : List FieldDef := fds.filter fun fd => !fd.skip

/-- One line per field: indentation, name, type. -/
def fieldLines (ty : Ty → String) (tab : String) (fds : List FieldDef) : String :=
  String.join ((shownFields fds).map fun fd => tab ++ fd.name ++ ": " ++ ty fd.ty.unbox ++ ",\n")

/-- The types of the fields with commas between them. -/
def fieldTypes (ty : Ty → String) (fds : List FieldDef) : String :=
  ", ".intercalate ((shownFields fds).map fun fd => ty fd.ty.unbox)

/-- A block in braces, with a line break after the opening one unless it is empty. -/
def braces (lines close : String) (empty : Bool) : String :=
  if empty then "{}" else "{\n" ++ lines ++ close ++ "}"

/-- One variant of an enum. -/
def variantLines (ty : Ty → String) : VariantDef → String
  | .struct n fds => "    " ++ n ++ " " ++
      braces (fieldLines ty "        " fds) "    " (shownFields fds).isEmpty ++ ",\n"
  | .tuple n fds => "    " ++ n ++ "(" ++ fieldTypes ty fds ++ "),\n"
  | .unit n => "    " ++ n ++ ",\n"

/-- How a declaration of a type with this name is printed. -/
def declText (ty : Ty → String) (self : String) : Shape → String
  | .struct fds => "struct " ++ self ++ " " ++ braces (fieldLines ty "    " fds) "" (shownFields fds).isEmpty
  | .tupleStruct fds => "struct " ++ self ++ "(" ++ fieldTypes ty fds ++ ")"
  | .enum vds => "enum " ++ self ++ " " ++ braces (String.join (vds.map (variantLines ty))) "" vds.isEmpty

end Mirror
