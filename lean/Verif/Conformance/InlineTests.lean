import Verif.Conformance.RepoTests
import Verif.Model.Visit

/-!
# The inline tests and documentation examples of the repository, run on the model

As `Conformance/RepoTests.lean`, for the `#[cfg(test)]` modules inside the sources (reflect_eq.rs, try_visit.rs,
type_info/pretty_print.rs) and the examples in documentation comments that assert something (lib.rs, macros lib.rs,
type_info/simple_type_name.rs).
-/

namespace Mirror.RepoTests

/-! ## reflect_eq.rs: `reflect_eq_scalar` (286-327) -/

/-- `reflect_eq(&a, &a)` and `reflect_eq(&a, &b)`. -/
def eqPair (a b : Scalar) : Option Bool × Option Bool :=
  (reflectEq noDecls (.scalar a) (.scalar a), reflectEq noDecls (.scalar a) (.scalar b))
example : [IntKind.usize, .u8, .u16, .u32, .u64, .u128, .i8, .i16, .i32, .i64, .i128].map
    (fun k => eqPair (.int k 1) (.int k 2)) = List.replicate 11 (some true, some false) := by cbv
example : eqPair (.bool true) (.bool false) = (some true, some false) ∧
    eqPair (.bool false) (.bool true) = (some true, some false) := by cbv
example : eqPair (.char 'a') (.char 'b') = (some true, some false) := by cbv
example : eqPair (.f32 0x3F800000) (.f32 0x40000000) = (some true, some false) := by cbv
example : eqPair (.f64 0x3FF0000000000000) (.f64 0x4000000000000000) = (some true, some false) := by cbv
example : eqPair (.string "a") (.string "b") = (some true, some false) := by cbv

/-! ## reflect_eq.rs: `reflect_eq_struct` (329-384) -/

/-- `A { foo, bar }`. -/
def eqA (n : Int) (b : Bool) : Obj := .struct (.derived "A") [("foo", i32 n), ("bar", bool b)]
/-- `123.0`. -/
def v123 : Value := .scalar (.f64 0x405EC00000000000)
example : reflectEq noDecls (eqA 1 true) (eqA 1 true) = some true := by cbv
example : reflectEq noDecls (eqA 2 true) (eqA 1 true) = some false := by cbv
example : reflectEq noDecls (eqA 1 true) (structValue [("foo", vI32 1), ("bar", vBool true)]).toObj = some true := by cbv
example : reflectEq noDecls (eqA 1 true) (structValue [("bar", vBool true), ("foo", vI32 1)]).toObj = some true := by cbv
example : reflectEq noDecls (eqA 1 true) (structValue [("foo", vI32 1), ("bar", vBool true), ("baz", v123)]).toObj =
    some false := by cbv
example : reflectEq noDecls (structValue [("foo", vI32 1), ("bar", vBool true), ("baz", v123)]).toObj (eqA 1 true) =
    some false := by cbv
example : reflectEq noDecls (structValue [("foo", vI32 1), ("baz", v123)]).toObj (eqA 1 true) = some false := by cbv
example : reflectEq noDecls (eqA 1 true) (structValue [("foo", vI32 1), ("baz", v123)]).toObj = some false := by cbv

/-! ## reflect_eq.rs: `reflect_eq_tuple_struct` (386-413), `reflect_eq_tuple` (415-438) -/

example : reflectEq noDecls (tsA 1 true) (tsA 1 true) = some true := by cbv
example : reflectEq noDecls (tsA 2 true) (tsA 1 true) = some false := by cbv
example : reflectEq noDecls (tsA 1 true) (tupleStructValue [vI32 1, vBool true]).toObj = some true := by cbv
example : reflectEq noDecls (tsA 1 true) (tupleStructValue [vBool true, vI32 1]).toObj = some false := by cbv
example : reflectEq noDecls (tsA 1 true) (tupleStructValue [vBool true, vI32 1, vI32 1]).toObj = some false := by cbv
example : reflectEq noDecls (pair 1 true) (pair 1 true) = some true := by cbv
example : reflectEq noDecls (pair 2 true) (pair 1 true) = some false := by cbv
example : reflectEq noDecls (pair 1 true) (tupleValue [vI32 1, vBool true]).toObj = some true := by cbv
example : reflectEq noDecls (pair 1 true) (tupleValue [vBool true, vI32 1]).toObj = some false := by cbv
example : reflectEq noDecls (pair 1 true) (tupleValue [vBool true, vI32 1, vI32 1]).toObj = some false := by cbv

/-! ## reflect_eq.rs: `reflect_eq_enum` (440-508) -/

/-- `A::Struct { a, b }`. -/
def eqS (n : Int) (b : Bool) : Obj := .enumS (.derived "A") "Struct" [("a", i32 n), ("b", bool b)]
/-- `A::Tuple(a, b)`. -/
def eqT (n : Int) (b : Bool) : Obj := .enumT (.derived "A") "Tuple" [i32 n, bool b]
/-- `A::Unit`. -/
def eqU : Obj := .enumU (.derived "A") "Unit"
/-- `reflect_eq(&a, &v)` for the value of a builder. -/
def eqTo (a : Obj) (v : Option Value) : Option Bool := v.bind fun v => reflectEq noDecls a v.toObj
example : reflectEq noDecls (eqS 1 true) (eqS 1 true) = some true := by cbv
example : eqTo (eqS 1 true) (structVariant "Struct" [("a", vI32 1), ("b", vBool true)]) = some true := by cbv
example : eqTo (eqS 1 true) (structVariant "Struct" [("b", vBool true), ("a", vI32 1)]) = some true := by cbv
example : eqTo (eqS 1 true) (structVariant "NotStruct" [("a", vI32 1), ("b", vBool true)]) = some false := by cbv
example : reflectEq noDecls (eqS 1 false) (eqS 1 true) = some false := by cbv
example : reflectEq noDecls (eqS 1 false) eqU = some false := by cbv
example : reflectEq noDecls (eqT 1 true) (eqT 1 true) = some true := by cbv
example : reflectEq noDecls (eqT 1 true) (eqT 1 false) = some false := by cbv
example : eqTo (eqT 1 true) (tupleVariant "Tuple" [vI32 1, vBool true]) = some true := by cbv
example : eqTo (eqT 1 true) (tupleVariant "Tuple" [vBool true, vI32 1]) = some false := by cbv
example : eqTo (eqT 1 true) (tupleVariant "NotTuple" [vI32 1, vBool true]) = some false := by cbv
example : reflectEq noDecls eqU eqU = some true := by cbv
example : reflectEq noDecls eqU (evNewUnit "Unit").toObj = some true := by cbv
example : reflectEq noDecls eqU (evNewUnit "NotUnit").toObj = some false := by cbv

/-! ## reflect_eq.rs: `reflect_eq_array` (510-516), `reflect_eq_list` (518-524), `reflect_eq_map` (526-570) -/

/-- `[..]`. -/
def arr (l : List Int) : Obj := .array tI32 (l.map i32)
example : reflectEq noDecls (arr [1, 2, 3]) (arr [1, 2, 3]) = some true := by cbv
example : reflectEq noDecls (arr [1, 2, 3]) (arr [1, 2, 3, 4]) = some false := by cbv
example : reflectEq noDecls (arr [1, 2, 3, 4]) (arr [1, 2, 3]) = some false := by cbv
example : reflectEq noDecls (arr [1, 2, 3]) (arr [1, 2, 4]) = some false := by cbv
example : reflectEq noDecls (vec [1, 2, 3]) (vec [1, 2, 3]) = some true := by cbv
example : reflectEq noDecls (vec [1, 2, 3]) (vec [1, 2, 3, 4]) = some false := by cbv
example : reflectEq noDecls (vec [1, 2, 3, 4]) (vec [1, 2, 3]) = some false := by cbv
example : reflectEq noDecls (vec [1, 2, 3]) (vec [1, 2, 4]) = some false := by cbv
/-- `BTreeMap::from([..])`. -/
def smap (l : List (String × Int)) : Obj :=
  l.foldl (fun m p => (m.mapInsert noDecls (str p.1) (i32 p.2)).2) (.map tStr tI32 [])
example : reflectEq noDecls (smap [("a", 1), ("b", 2)]) (smap [("a", 1), ("b", 2)]) = some true := by cbv
example : reflectEq noDecls (smap [("a", 1), ("b", 2)]) (smap [("b", 2), ("a", 1)]) = some true := by cbv
example : reflectEq noDecls (smap [("a", 2), ("b", 2)]) (smap [("b", 2), ("a", 1)]) = some false := by cbv
example : reflectEq noDecls (smap [("a", 1), ("b", 2)]) (smap [("a", 1)]) = some false := by cbv

/-! ## try_visit.rs (146-231) -/

/-- The declarations. -/
def visEnv : Env := env [
  ("Foo", ⟨.struct [fd "a" tStr, fd "b" tI32, fd "c" (.vec (.named "Bar"))], false⟩),
  ("Bar", ⟨.enum [.tuple "A" [fd "" (.map tI32 tI32)]], false⟩),
  ("Recursive", ⟨.tupleStruct [fd "" tI32, fd "" (.vec (.named "Recursive"))], false⟩)]
/-- `CountsI32sAndStrings`: strings and `i32`s. -/
def counts : Visitor (Nat × Nat) Unit
  | .scalar (.string _), s => (none, (s.1 + 1, s.2))
  | .scalar (.int .i32 _), s => (none, (s.1, s.2 + 1))
  | _, s => (none, s)
/-- `try_visit(&mut visitor, &o, T::type_descriptor().get_type())`. -/
def visitOf (t : Ty) (o : Obj) : Option (Visited (Nat × Nat) Unit) :=
  (describe visEnv 9 t).map fun d => tryVisit d.graph counts d.root o (0, 0)
example : visitOf (.named "Foo") (.struct (.derived "Foo") [("a", str "a"), ("b", i32 1337),
    ("c", .vec (.named "Bar") [.enumT (.derived "Bar") "A" [.map tI32 tI32 [(i32 1, i32 1), (i32 2, i32 2)]]])]) =
    some (.ok (1, 5)) := by cbv
/-- `Recursive(n, l)`. -/
def rec_ (n : Int) (l : List Obj) : Obj := .tupleStruct (.derived "Recursive") [i32 n, .vec (.named "Recursive") l]
example : visitOf (.named "Recursive") (rec_ 1 [rec_ 2 [rec_ 3 []]]) = some (.ok (0, 3)) := by cbv

/-! ## type_info/pretty_print.rs (253-405) -/

/-- The declarations. -/
def ppEnv : Env := env [("Foo", ⟨.struct [fd "a" tStr, fd "b" (.vec tI32)], false⟩), ("FooE", ⟨.struct [], false⟩),
  ("FooT", ⟨.tupleStruct [fd "" tStr, fd "" (.vec tI32)], false⟩), ("FooTE", ⟨.tupleStruct [], false⟩),
  ("FooEnum", ⟨.enum [.tuple "A" [fd "" tStr, fd "" tI32], .tuple "A2" [], .struct "B" [fd "b" (.vec tI32)],
    .struct "B2" [], .unit "C"], false⟩)]
/-- The simple names of the types that occur. -/
def ppName : Ty → Except PrintErr String
  | .named _ => .ok "Foo"
  | .scalar .string => .ok "String"
  | .scalar (.int .i32) => .ok "i32"
  | .vec (.scalar (.int .i32)) => .ok "Vec<i32>"
  | .tuple [.scalar .string, .scalar (.int .i32)] => .ok "(String, i32)"
  | _ => .error .fmt
/-- `format!("{}", T::type_descriptor().pretty_print_root())`. -/
def pretty (t : Ty) : Option (Except PrintErr String) := (describe ppEnv 9 t).map fun d => prettyRoot ppName d.graph d.root
example : pretty (.named "FooE") = some (.ok "struct Foo {}") := by cbv
example : pretty (.named "FooT") = some (.ok "struct Foo(String, Vec<i32>)") := by cbv
example : pretty (.named "FooTE") = some (.ok "struct Foo()") := by cbv
example : pretty (.tuple [tStr, .vec tI32]) = some (.ok "(String, Vec<i32>)") := by cbv
example : pretty (.vec (.tuple [tStr, tI32])) = some (.ok "[(String, i32)]") := by cbv
example : pretty (.array (.tuple [tStr, tI32]) 10) = some (.ok "[(String, i32); 10]") := by cbv
example : pretty (.map tStr tI32) = some (.ok "[String: i32]") := by cbv
example : pretty tStr = some (.ok "String") := by cbv
example : pretty (.named "Foo") = some (.ok "struct Foo {\n    a: String,\n    b: Vec<i32>,\n}") := by cbv
example : pretty (.named "FooEnum") = some (.ok ("enum Foo {\n    A(String, i32),\n    A2(),\n    B {\n" ++
    "        b: Vec<i32>,\n    },\n    B2 {},\n    C,\n}")) := by cbv

/-! ## The examples in the documentation -/

-- lib.rs:5-36: `*x += 1` through `field_mut`
/-- The declaration. -/
def docA : Env := env [("Foo", ⟨.struct [fd "x" tI32], false⟩)]
example : ((Obj.struct (.derived "Foo") [("x", i32 42)]).fieldMut "x").bind (fun p =>
    (p.downcast tI32 tI32).map fun p => p.put (match p.get with | .scalar (.int k n) => .scalar (.int k (n + 1)) | o => o)) =
    some (.struct (.derived "Foo") [("x", i32 43)]) := by cbv
-- lib.rs:38-86: doubling the `i32`s and appending to the strings
/-- `change_enum_fields` on one field. -/
def change : Obj → Obj
  | .scalar (.int .i32 n) => i32 (n * 2)
  | .scalar (.string s) => str (s ++ "bar")
  | o => o
/-- `change_enum_fields`. -/
def changeAll (o : Obj) : Obj := o.fieldsMut.put (o.fieldsMut.items.map fun p => change p.2)
example : changeAll (.enumS (.derived "Bar") "X" [("x", i32 42)]) = .enumS (.derived "Bar") "X" [("x", i32 84)] := by cbv
example : changeAll (.enumT (.derived "Bar") "Y" [str "foo"]) = .enumT (.derived "Bar") "Y" [str "foobar"] := by cbv
-- lib.rs:88-141: the same path through `Option`
/-- The declarations. -/
def docB : Env := env [("User", ⟨.struct [fd "employer" (.named "Option<Company>")], false⟩),
  ("Option<Company>", optionDef (.named "Company")),
  ("Company", ⟨.struct [fd "countries" (.vec (.named "Country"))], false⟩),
  ("Country", ⟨.struct [fd "name" tStr], false⟩)]
/-- The path. -/
def docPath : KeyPath := KeyPath.field (KeyPath.getKey (KeyPath.field (KeyPath.fieldAt (KeyPath.variant
  (pathField "employer") "Some") 0) "countries") (vI32 0)) "name"
example : docPath = keyPathMacro [] [.dotIdent "employer", .colons "Some", .dotLit 0, .dotIdent "countries", ix 0,
    .dotIdent "name"] := by cbv
example : getAt docB (.struct (.derived "User") [("employer", .enumT (.derived "Option<Company>") "Some"
    [.struct (.derived "Company") [("countries", .vec (.named "Country")
      [.struct (.derived "Country") [("name", str "Denmark")]])]])]) docPath tStr = some (str "Denmark") := by cbv
example : typeAtOf docB (.named "User") docPath = some (some (.ty tStr (.scalar .string))) := by cbv
-- lib.rs:143-176: pushing to a list inside a `Value`
/-- The declaration. -/
def docC : Env := env [("Foo", ⟨.tupleStruct [fd "" (.vec tI32)], false⟩)]
example : ((Obj.tupleStruct (.derived "Foo") [vec [1, 2, 3]]).toValue.toObj.fieldAtMut 0).bind (fun p =>
    fromReflect docC (.named "Foo") (p.put (p.get.listPush docC (i32 4)))) =
    some (.tupleStruct (.derived "Foo") [vec [1, 2, 3, 4]]) := by cbv
-- macros lib.rs:184-228: `get_meta` of a type and of a field
example : ((parseAttrs [.reflectMeta [("item_key", str "item value")]]).bind fun a =>
    getMeta noDecls tStr (a.ann.meta "item_key")) = some (str "item value") := by cbv
example : ((parseAttrs [.reflectMeta [("field_key", i32 1337)]]).bind fun a =>
    (fieldAnn (structAnns [fd "n" tI32] [a]) "n").bind fun n => getMeta noDecls tI32 (n.meta "field_key")) =
    some (i32 1337) := by cbv
-- type_info/simple_type_name.rs:46-70: function pointers are not supported
example : (SynTy.other "fn() -> i32").write = none := by cbv

end Mirror.RepoTests
