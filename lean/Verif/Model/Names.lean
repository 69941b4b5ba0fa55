import Verif.Model.TypeInfo

/-!
# Type names and pretty printing

Models type_info/simple_type_name.rs and type_info/pretty_print.rs. The type syntax tree is that of `syn`,
cut down to what the writer looks at; syntax it does not look into is kept as its source text. Parsing is
done by `syn` and is a parameter. Text is what the formatter receives if everything succeeds; what a failed
`write` has written before is left out.
-/

namespace Mirror

/-- `syn::Lit` (simple_type_name.rs:210-221). -/
inductive SynLit
  | int (digits : String)
  | float (digits : String)
  | bool (b : Bool)
  | other (text : String)

/-- `syn::Expr` (simple_type_name.rs:155-208). -/
inductive SynExpr
  | lit (l : SynLit)
  | other (text : String)

mutual
/-- `syn::Type` (simple_type_name.rs:114-135). `other`: function pointers, slices, raw pointers, trait
objects, ... -/
inductive SynTy
  | array (elem : SynTy) (len : SynExpr)
  | path (qself : Option String) (leadingColon : Bool) (segs : List SynSeg)
  | tuple (elems : List SynTy)
  | ref (lifetime : Option String) (mutable : Bool) (elem : SynTy)
  | other (text : String)
/-- `syn::PathSegment` (simple_type_name.rs:264-271). -/
inductive SynSeg
  | mk (ident : String) (args : SynArgs)
/-- `syn::PathArguments` (simple_type_name.rs:280-288). -/
inductive SynArgs
  | none
  | angle (args : List SynArg)
  | paren (text : String)
/-- `syn::GenericArgument` (simple_type_name.rs:311-323). `other`: lifetimes, associated items. -/
inductive SynArg
  | ty (t : SynTy)
  | const (e : SynExpr)
  | other (text : String)
end

/-- simple_type_name.rs:210-239. -/
def SynLit.write : SynLit → Option String
  | .int d => some d
  | .float d => some d
  | .bool b => some (if b then "true" else "false")
  | .other _ => none

/-- simple_type_name.rs:155-208. -/
def SynExpr.write : SynExpr → Option String
  | .lit l => l.write
  | .other _ => none

mutual
/-- `TypeWriter::write` for `Type` (simple_type_name.rs:114-152, 241-250, 325-374). -/
def SynTy.write : SynTy → Option String
  | .array elem len =>
    match elem.write with
    | none => none
    | some e =>
      match len.write with
      | none => none
      | some l => some ("[" ++ e ++ "; " ++ l ++ "]")
  | .path qself _ segs =>
    match qself with
    | some _ => none
    | none => writeLast segs
  | .tuple elems =>
    match writeElems elems with
    | none => none
    | some s => some (if elems.length = 1 then "(" ++ s ++ ",)" else "(" ++ s ++ ")")
  | .ref _ mutable elem =>
    match elem.write with
    | none => none
    | some e => some ("&" ++ (if mutable then "mut " else "") ++ e)
  | .other _ => none
/-- For `Path`: the last segment (simple_type_name.rs:252-262). -/
def writeLast : List SynSeg → Option String
  | [] => none
  | [s] => s.write
  | _ :: s :: ss => writeLast (s :: ss)
/-- For `PathSegment` (simple_type_name.rs:264-278). -/
def SynSeg.write : SynSeg → Option String
  | .mk ident args =>
    match args.write with
    | none => none
    | some a => some (ident ++ a)
/-- For `PathArguments` (simple_type_name.rs:280-309). -/
def SynArgs.write : SynArgs → Option String
  | .none => some ""
  | .angle args =>
    match writeArgs args with
    | none => none
    | some s => some ("<" ++ s ++ ">")
  | .paren _ => none
/-- The loop over generic arguments (simple_type_name.rs:299-305). -/
def writeArgs : List SynArg → Option String
  | [] => some ""
  | [a] => a.write
  | a :: b :: rest =>
    match a.write with
    | none => none
    | some s =>
      match writeArgs (b :: rest) with
      | none => none
      | some r => some (s ++ ", " ++ r)
/-- For `GenericArgument` (simple_type_name.rs:311-323). -/
def SynArg.write : SynArg → Option String
  | .ty t => t.write
  | .const e => e.write
  | .other _ => none
/-- The loop over tuple elements (simple_type_name.rs:331-346), without the comma after a single one. -/
def writeElems : List SynTy → Option String
  | [] => some ""
  | [a] => a.write
  | a :: b :: rest =>
    match a.write with
    | none => none
    | some s =>
      match writeElems (b :: rest) with
      | none => none
      | some r => some (s ++ ", " ++ r)
end

/-- `type_name.replace("::_", "")` (simple_type_name.rs:81-87). -/
def stripUnnamed : List Char → List Char
  | ':' :: ':' :: '_' :: cs => stripUnnamed cs
  | c :: cs => c :: stripUnnamed cs
  | [] => []

/-- `SimpleTypeName::new` (simple_type_name.rs:79-91). -/
def simpleNew (parse : String → Option SynTy) (name : String) : Option SynTy :=
  parse (String.ofList (stripUnnamed name.toList))

/-! ## Pretty printing -/

/-- Why printing did not succeed. -/
inductive PrintErr
  | fmt
  | panic
  deriving DecidableEq

/-- `simple_type_name_fmt` (pretty_print.rs:53-59, with the `std` feature). -/
def nameFmt (parse : String → Option SynTy) (name : String) : Except PrintErr String :=
  match simpleNew parse name with
  | some t =>
    match t.write with
    | some s => .ok s
    | none => .error .fmt
  | none => .ok name

/-- What the printer prints for the type of a field: `get_type()` panics if the id is not in the graph. -/
def typeFmt (nm : Ty → Except PrintErr String) (g : TypeGraph) (t : Option Ty) : Except PrintErr String :=
  match t with
  | none => .error .panic
  | some t =>
    match g.node t with
    | none => .error .panic
    | some _ => nm t

/-- The loop over named fields, each on its own line (pretty_print.rs:75-82, 135-143). -/
def namedLines (nm : Ty → Except PrintErr String) (g : TypeGraph) (tab : String) :
    List (String × Option Ty) → Except PrintErr String
  | [] => .ok ""
  | (n, t) :: rest =>
    match typeFmt nm g t with
    | .error e => .error e
    | .ok s =>
      match namedLines nm g tab rest with
      | .error e => .error e
      | .ok r => .ok (tab ++ n ++ ": " ++ s ++ ",\n" ++ r)

/-- The loop over unnamed fields (pretty_print.rs:94-100, 109-115, 153-159). -/
def unnamedItems (nm : Ty → Except PrintErr String) (g : TypeGraph) :
    List Ty → Except PrintErr String
  | [] => .ok ""
  | [t] => typeFmt nm g (some t)
  | t :: u :: rest =>
    match typeFmt nm g (some t) with
    | .error e => .error e
    | .ok s =>
      match unnamedItems nm g (u :: rest) with
      | .error e => .error e
      | .ok r => .ok (s ++ ", " ++ r)

/-- One variant (pretty_print.rs:129-167). -/
def variantText (nm : Ty → Except PrintErr String) (g : TypeGraph) :
    VariantNode → Except PrintErr String
  | .struct n names fields =>
    match if fields.length ≠ 0 then
        (namedLines nm g "        " (namedTypes names fields)).map fun r => "\n" ++ r ++ "    "
      else .ok "" with
    | .error e => .error e
    | .ok r => .ok ("    " ++ n ++ " {" ++ r ++ "},\n")
  | .tuple n fields =>
    match unnamedItems nm g fields with
    | .error e => .error e
    | .ok r => .ok ("    " ++ n ++ "(" ++ r ++ "),\n")
  | .unit n => .ok ("    " ++ n ++ ",\n")

/-- The loop over variants (pretty_print.rs:128-168). -/
def variantsText (nm : Ty → Except PrintErr String) (g : TypeGraph) :
    List VariantNode → Except PrintErr String
  | [] => .ok ""
  | v :: vs =>
    match variantText nm g v with
    | .error e => .error e
    | .ok s =>
      match variantsText nm g vs with
      | .error e => .error e
      | .ok r => .ok (s ++ r)

/-- pretty_print.rs:208-225. -/
def scalarText : ScalarKind → String
  | .int .usize => "usize" | .int .u8 => "u8" | .int .u16 => "u16" | .int .u32 => "u32"
  | .int .u64 => "u64" | .int .u128 => "u128" | .int .i8 => "i8" | .int .i16 => "i16"
  | .int .i32 => "i32" | .int .i64 => "i64" | .int .i128 => "i128" | .bool => "bool" | .char => "char"
  | .f32 => "f32" | .f64 => "f64" | .string => "String"

/-- `pretty_root_fmt` (pretty_print.rs:37-50, 68-236) of the type with this id. `nm` is
`simple_type_name_fmt` of the type's name. -/
def prettyRoot (nm : Ty → Except PrintErr String) (g : TypeGraph) (id : Ty) : Except PrintErr String :=
  match g.node id with
  | none => .error .panic
  | some (.struct names fields) =>
    match nm id with
    | .error e => .error e
    | .ok self =>
      match if fields.length ≠ 0 then
          (namedLines nm g "    " (namedTypes names fields)).map fun r => "\n" ++ r
        else .ok "" with
      | .error e => .error e
      | .ok r => .ok ("struct " ++ self ++ " {" ++ r ++ "}")
  | some (.tupleStruct fields) =>
    match nm id with
    | .error e => .error e
    | .ok self =>
      match unnamedItems nm g fields with
      | .error e => .error e
      | .ok r => .ok ("struct " ++ self ++ "(" ++ r ++ ")")
  | some (.tuple fields) =>
    match unnamedItems nm g fields with
    | .error e => .error e
    | .ok r => .ok ("(" ++ r ++ ")")
  | some (.enum vs) =>
    match nm id with
    | .error e => .error e
    | .ok self =>
      match if vs.length ≠ 0 then (variantsText nm g vs).map fun r => "\n" ++ r else .ok "" with
      | .error e => .error e
      | .ok r => .ok ("enum " ++ self ++ " {" ++ r ++ "}")
  | some (.list t) =>
    match typeFmt nm g (some t) with
    | .error e => .error e
    | .ok s => .ok ("[" ++ s ++ "]")
  | some (.array t n) =>
    match typeFmt nm g (some t) with
    | .error e => .error e
    | .ok s => .ok ("[" ++ s ++ "; " ++ toString n ++ "]")
  | some (.map k v) =>
    match typeFmt nm g (some k) with
    | .error e => .error e
    | .ok s =>
      match typeFmt nm g (some v) with
      | .error e => .error e
      | .ok r => .ok ("[" ++ s ++ ": " ++ r ++ "]")
  | some (.scalar k) => .ok (scalarText k)
  | some .opaque => nm id

end Mirror
