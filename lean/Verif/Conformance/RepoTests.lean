import Verif.Model.Reflect
import Verif.Model.Access
import Verif.Model.Mut
import Verif.Model.Containers
import Verif.Model.Default
import Verif.Model.DebugDeep
import Verif.Model.Foreign
import Verif.Model.Into
import Verif.Model.Meta
import Verif.Model.Names
import Verif.Model.TypePath
import Verif.Model.TypeView
import Verif.Model.With

/-!
# The tests of the repository, run on the model

Every assertion of `/repo/crates/mirror-mirror/src/tests/*.rs` that the model can express, as an equation between what
the model computes and what the test expects. These are tests of the model against the code, not proofs of properties:
the sandbox cannot run the Rust tests, but their authors did, so a model that disagreed with one of them would be wrong.
Each equation is checked by the kernel (`cbv` evaluates with the equations of the definitions).

Left out: types that only have to compile, and a hand-written `FromReflect` (`from_reflect_opt_out` of tests/mod.rs).
`opaque_default`, `basic_eq` and `basic_hash` of tests/type_info.rs are in `Verif.Conformance.DescriptorTests`.
-/

namespace Mirror.RepoTests

/-! ## Notation for the literals of the tests -/

/-- `n_i32`. -/
abbrev i32 (n : Int) : Obj := .scalar (.int .i32 n)
/-- `true`, `false`. -/
abbrev bool (b : Bool) : Obj := .scalar (.bool b)
/-- `"s".to_owned()`. -/
abbrev str (s : String) : Obj := .scalar (.string s)
/-- `i32`. -/
abbrev tI32 : Ty := .scalar (.int .i32)
/-- `u32`. -/
abbrev tU32 : Ty := .scalar (.int .u32)
/-- `bool`. -/
abbrev tBool : Ty := .scalar .bool
/-- `String`. -/
abbrev tStr : Ty := .scalar .string
/-- `f32`. -/
abbrev tF32 : Ty := .scalar .f32
/-- `1_i32.to_value()`. -/
abbrev vI32 (n : Int) : Value := .scalar (.int .i32 n)
/-- `b.to_value()`. -/
abbrev vBool (b : Bool) : Value := .scalar (.bool b)
/-- `s.to_value()`. -/
abbrev vStr (s : String) : Value := .scalar (.string s)

/-- A declared field. -/
abbrev fd (n : String) (t : Ty) : FieldDef := ⟨n, t, false⟩

/-- The declarations of one test; keys of maps are compared as the derived `Ord` of their types does, here through
`Value`. -/
def env (ds : List (String × TyDef)) : Env where
  decl n := (ds.find? fun d => d.1 = n).map (·.2)
  kcmp _ a b := Value.cmp a.toValue b.toValue

/-- No declarations. -/
abbrev noDecls : Env := env []

/-- `EnumValue::new_struct_variant(v).with_struct_field(..)..finish()` (enum_.rs:114-150). -/
def structVariant (v : String) (fs : List (String × Value)) : Option Value :=
  fs.foldl (fun e f => e.bind fun e => evSetStructField e f.1 f.2) (some (evNewStruct v))

/-- `EnumValue::new_tuple_variant(v).with_tuple_field(..)..finish()`. -/
def tupleVariant (v : String) (fs : List Value) : Option Value :=
  fs.foldl (fun e f => e.bind fun e => evPushTupleField e f) (some (evNewTuple v))

/-- `StructValue::new().with_field(..)..`. -/
def structValue (fs : List (String × Value)) : Value :=
  fs.foldl (fun s f => svSetField s f.1 f.2) svNew

/-- `TupleValue::new().with_field(..)..`. -/
def tupleValue (fs : List Value) : Value := fs.foldl tvPush tvNew

/-- `TupleStructValue::new().with_field(..)..`. -/
def tupleStructValue (fs : List Value) : Value := fs.foldl tsvPush tsvNew

/-- `*place = x`, if there is a place. -/
def assign (p : Option Place) (x : Obj) : Option Obj := p.map fun p => p.put x

/-! ## tests/enum_.rs: `enum_value` (11-54) -/

/-- `enum_` of the test. -/
def ev0 : Obj := .enumS (.dyn ["foo", "bar"]) "Foo" [("bar", bool false), ("foo", i32 1)]
example : (structVariant "Foo" [("foo", vI32 1), ("bar", vBool false)]).map (·.toObj) = some ev0 := by cbv
example : getNamed noDecls ev0 "foo" tI32 = some (i32 1) := by cbv
example : getNamed noDecls ev0 "bar" tBool = some (bool false) := by cbv
/-- After `*enum_.get_field_mut("foo").unwrap() = 42`. -/
def ev1 : Obj := .enumS (.dyn ["foo", "bar"]) "Foo" [("bar", bool false), ("foo", i32 42)]
example : assign (getNamedMut noDecls ev0 "foo" tI32) (i32 42) = some ev1 := by cbv
example : getNamed noDecls ev1 "foo" tI32 = some (i32 42) := by cbv
/-- After the patch. -/
def ev2 : Obj := .enumS (.dyn ["foo", "bar"]) "Foo" [("bar", bool true), ("foo", i32 42)]
example : (structVariant "Foo" [("bar", vBool true)]).map (fun v => patch noDecls ev1 v.toObj) = some ev2 := by cbv
example : getNamed noDecls ev2 "bar" tBool = some (bool true) := by cbv
example : (fromReflect noDecls .enumValue ev2).bind (fun e => getNamed noDecls e "foo" tI32) = some (i32 42) := by cbv
example : (fromReflect noDecls .enumValue ev2).bind (fun e => getNamed noDecls e "bar" tBool) = some (bool true) := by
  cbv
example : valueGetStr noDecls ev2.toValue.toObj "foo" tI32 = some (i32 42) := by cbv
example : valueGetStr noDecls ev2.toValue.toObj "bar" tBool = some (bool true) := by cbv
example : ev2.toValue.toObj.variantIter = [.struct "foo" (i32 42), .struct "bar" (bool true)] := by cbv

/-! ## tests/enum_.rs: `static_enum` (56-121) -/

/-- The declaration of `Foo`. -/
def enumEnv : Env := env [("Foo", ⟨.enum [.struct "Foo" [fd "foo" tI32, fd "bar" tBool], .struct "Bar" [fd "baz" tStr]],
  false⟩)]
/-- `Foo::Foo { foo, bar }`. -/
def fooFoo (n : Int) (b : Bool) : Obj := .enumS (.derived "Foo") "Foo" [("foo", i32 n), ("bar", bool b)]
example : (fooFoo 1 false).variantKind = some .struct := by cbv
example : getNamed enumEnv (fooFoo 1 false) "foo" tI32 = some (i32 1) := by cbv
example : getNamed enumEnv (fooFoo 1 false) "bar" tBool = some (bool false) := by cbv
example : assign (getNamedMut enumEnv (fooFoo 1 false) "foo" tI32) (i32 42) = some (fooFoo 42 false) := by cbv
example : (structVariant "Foo" [("bar", vBool true)]).map (fun v => patch enumEnv (fooFoo 42 false) v.toObj) =
    some (fooFoo 42 true) := by cbv
example : (structVariant "Ignored" [("bar", vBool false)]).map (fun v => patch enumEnv (fooFoo 42 true) v.toObj) =
    some (fooFoo 42 true) := by cbv
example : fromReflect enumEnv (.named "Foo") (fooFoo 42 true) = some (fooFoo 42 true) := by cbv
example : valueGetStr enumEnv (fooFoo 42 true).toValue.toObj "foo" tI32 = some (i32 42) := by cbv
example : valueGetStr enumEnv (fooFoo 42 true).toValue.toObj "bar" tBool = some (bool true) := by cbv
example : (fooFoo 42 true).toValue.toObj.variantIter = [.struct "foo" (i32 42), .struct "bar" (bool true)] := by cbv
example : (structVariant "NotInFoo" [("baz", vStr "foo")]).bind
    (fun v => fromReflect enumEnv (.named "Foo") v.toObj) = none := by cbv

/-! ## tests/enum_.rs: `patching` (123-201) -/

/-- The declaration of `Foo`. -/
def patEnv : Env := env [("Foo", ⟨.enum [.struct "A" [fd "a" tI32], .struct "B" [fd "b" tBool]], false⟩)]
/-- `Foo::A { a }`. -/
def patA (n : Int) : Obj := .enumS (.derived "Foo") "A" [("a", i32 n)]
/-- `Foo::B { b }`. -/
def patB (b : Bool) : Obj := .enumS (.derived "Foo") "B" [("b", bool b)]
example : patch patEnv (patA 1) (patB false) = patB false := by cbv
example : patch patEnv (patA 1) (patA 42) = patA 42 := by cbv
example : (structVariant "B" [("b", vBool false)]).map (fun v => patch patEnv (patA 1) v.toObj) =
    some (patB false) := by cbv
example : (structVariant "A" [("a", vI32 42)]).map (fun v => patch patEnv (patA 1) v.toObj) = some (patA 42) := by cbv
example : (structVariant "A" [("a", vI32 1)]).bind
    (fun v => getNamed patEnv (patch patEnv v.toObj (patB false)) "b" tBool) = some (bool false) := by cbv
example : (structVariant "A" [("a", vI32 1)]).bind
    (fun v => getNamed patEnv (patch patEnv v.toObj (patA 42)) "a" tI32) = some (i32 42) := by cbv
/-- `value.patch(value)`, whole. -/
def patVV : Option Obj := (structVariant "A" [("a", vI32 1)]).bind fun v => (structVariant "B" [("b", vBool false)]).map
  fun w => patch patEnv v.toObj w.toObj
example : patVV.bind (·.variantName) = some "B" := by cbv
example : patVV.bind (getNamed patEnv · "a" tI32) = none := by cbv
example : patVV.bind (getNamed patEnv · "b" tBool) = some (bool false) := by cbv
example : (structVariant "A" [("a", vI32 1)]).bind (fun v => (structVariant "A" [("a", vI32 42)]).bind
    fun w => getNamed patEnv (patch patEnv v.toObj w.toObj) "a" tI32) = some (i32 42) := by cbv

/-! ## tests/enum_.rs: `static_tuple_enum` (203-273) -/

/-- The declaration of `Foo`. -/
def tupEnv : Env := env [("Foo", ⟨.enum [.tuple "A" [fd "" tI32, fd "" tBool], .tuple "B" [fd "" tStr]], false⟩)]
/-- `Foo::A(n, b)`. -/
def tupA (n : Int) (b : Bool) : Obj := .enumT (.derived "Foo") "A" [i32 n, bool b]
/-- `Foo::B(s)`. -/
def tupB (s : String) : Obj := .enumT (.derived "Foo") "B" [str s]
example : getIndexed (tupA 1 true) 0 tI32 = some (i32 1) := by cbv
example : getIndexed (tupA 1 true) 1 tBool = some (bool true) := by cbv
example : (tupA 1 true).fieldAt 2 = none := by cbv
example : (getIndexedMut (tupA 1 true) 0 tI32).map (·.get) = some (i32 1) := by cbv
example : (getIndexedMut (tupA 1 true) 1 tBool).map (fun p => p.put (patch tupEnv p.get (bool false))) =
    some (tupA 1 false) := by cbv
example : ((tupA 1 true).fieldAtMut 2).isNone = true := by cbv
example : patch tupEnv (tupA 1 true) (tupB "foo") = tupB "foo" := by cbv
example : patch tupEnv (tupA 1 true) (tupA 42 true) = tupA 42 true := by cbv
example : (tupleVariant "B" [vStr "foo"]).map (fun v => patch tupEnv (tupA 1 true) v.toObj) = some (tupB "foo") := by cbv
example : (tupleVariant "A" [vI32 42]).map (fun v => patch tupEnv (tupA 1 true) v.toObj) = some (tupA 42 true) := by cbv
/-- `value.patch(static)`, whole. -/
def tupVS : Option Obj := (tupleVariant "A" [vI32 1, vBool true]).map fun v => patch tupEnv v.toObj (tupB "foo")
example : tupVS.bind (getIndexed · 0 tStr) = some (str "foo") := by cbv
example : tupVS.bind (·.fieldAt 1) = none := by cbv
/-- `value.patch(static)`, part. -/
def tupVP : Option Obj :=
  (tupleVariant "A" [vI32 1, vBool true, vStr "foo"]).map fun v => patch tupEnv v.toObj (tupA 42 true)
example : tupVP.bind (getIndexed · 0 tI32) = some (i32 42) := by cbv
example : tupVP.bind (getIndexed · 1 tBool) = some (bool true) := by cbv
example : tupVP.bind (getIndexed · 2 tStr) = some (str "foo") := by cbv
example : tupVP.bind (·.fieldAt 3) = none := by cbv

/-! ## tests/enum_.rs: `unit_variant` (275-313) -/

/-- The declaration of `Foo`. -/
def unitEnv : Env := env [("Foo", ⟨.enum [.unit "A", .unit "B"], false⟩)]
/-- `Foo::A`, `Foo::B`. -/
def unitV (v : String) : Obj := .enumU (.derived "Foo") v
example : patch unitEnv (unitV "A") (unitV "B") = unitV "B" := by cbv
example : patch unitEnv (unitV "A") (evNewUnit "B").toObj = unitV "B" := by cbv
example : (patch unitEnv (evNewUnit "A").toObj (unitV "B")).variantName = some "B" := by cbv
example : (patch unitEnv (evNewUnit "A").toObj (evNewUnit "B").toObj).variantName = some "B" := by cbv
example : patch unitEnv (unitV "A") (evNewUnit "Unknown").toObj = unitV "A" := by cbv
example : (unitV "A").toValue.toObj.variantKind = some .unit := by cbv
example : (unitV "A").toValue.toObj.variantName = some "A" := by cbv

/-! ## tests/enum_.rs: `option` (315-398) -/

/-- `Option<i32>`. -/
abbrev tOpt : Ty := .named "Option<i32>"
/-- The declaration of `Option<i32>` (foreign_impls/mod.rs:20-28). -/
def optEnv : Env := env [("Option<i32>", optionDef tI32)]
/-- `Some(n)`. -/
def some_ (n : Int) : Obj := .enumT (.derived "Option<i32>") "Some" [i32 n]
/-- `None::<i32>`. -/
def none_ : Obj := .enumU (.derived "Option<i32>") "None"
/-- `Option` is declared with `opt_out(Debug)`. -/
def optPrint : Printing := ⟨fun _ => true, fun _ _ => "", fun _ => "", fun _ => "", id, fun _ => "", fun _ => ""⟩
example : (some_ 1).variantName = some "Some" := by cbv
example : (some_ 1).variantKind = some .tuple := by cbv
example : debugAs optEnv optPrint (some tOpt) (some_ 1) = .tuple "Some" [.text "1"] := by cbv
example : none_.variantName = some "None" := by cbv
example : none_.variantKind = some .unit := by cbv
example : debugAs optEnv optPrint (some tOpt) none_ = .text "None" := by cbv
example : (some_ 1).toValue.toObj.variantName = some "Some" := by cbv
example : (some_ 1).toValue.toObj.variantKind = some .tuple := by cbv
example : getIndexed (some_ 1).toValue.toObj 0 tI32 = some (i32 1) := by cbv
example : (some_ 1).toValue.toObj.fieldAt 1 = none := by cbv
example : none_.toValue.toObj.variantName = some "None" := by cbv
example : none_.toValue.toObj.variantKind = some .unit := by cbv
example : none_.toValue.toObj.fieldAt 0 = none := by cbv
example : (cloneReflect optEnv (some_ 1)).bind (·.variantName) = some "Some" := by cbv
example : (cloneReflect optEnv none_).bind (·.variantName) = some "None" := by cbv
example : patch optEnv (some_ 1) (some_ 42) = some_ 42 := by cbv
example : patch optEnv (some_ 1) none_ = none_ := by cbv
example : patch optEnv (some_ 1) (evNewUnit "None").toObj = none_ := by cbv
example : patch optEnv (some_ 1) none_.toValue.toObj = none_ := by cbv
example : patch optEnv (some_ 1) (evNewUnit "None").toObj.toValue.toObj = none_ := by cbv
example : fromReflect optEnv tOpt (patch optEnv (some_ 1).toValue.toObj none_.toValue.toObj) = some none_ := by cbv
example : fromReflect optEnv tOpt (patch optEnv (some_ 1).toValue.toObj (evNewUnit "None").toObj.toValue.toObj) =
    some none_ := by cbv
example : patch optEnv none_ (some_ 42) = some_ 42 := by cbv
example : patch optEnv none_ none_ = none_ := by cbv
example : fromReflect optEnv tOpt (some_ 1) = some (some_ 1) := by cbv
example : fromReflect optEnv tOpt none_ = some none_ := by cbv
example : (some_ 1).fieldsLen = 1 := by cbv
example : none_.fieldsLen = 0 := by cbv

/-! ## `from_reflect_with_value` of tests/enum_.rs (400-427), tests/tuple_struct.rs (47-66), tests/struct_.rs -/

/-- The declarations of the three tests. -/
def numEnv : Env := env [
  ("Number", ⟨.enum [.unit "One", .unit "Two", .unit "Three"], false⟩),
  ("FooE", ⟨.enum [.struct "Struct" [fd "number" (.named "Number")], .tuple "Tuple" [fd "" (.named "Number")]], false⟩),
  ("FooT", ⟨.tupleStruct [fd "" (.named "Number")], false⟩),
  ("FooS", ⟨.struct [fd "number" (.named "Number")], false⟩)]
/-- `Number::One`. -/
def one : Obj := .enumU (.derived "Number") "One"
example : ((structVariant "Struct" [("number", one.toValue)]).bind
    fun v => fromReflect numEnv (.named "FooE") v.toObj).isSome = true := by cbv
example : ((tupleVariant "Tuple" [one.toValue]).bind fun v => fromReflect numEnv (.named "FooE") v.toObj).isSome =
    true := by cbv
example : (fromReflect numEnv (.named "FooT") (tupleStructValue [one.toValue]).toObj).isSome = true := by cbv
example : (fromReflect numEnv (.named "FooS") (structValue [("number", one.toValue)]).toObj).isSome = true := by cbv

/-! ## Defaults: tests/enum_.rs (429-473), tests/array.rs, tests/tuple.rs (30-42), tests/value.rs (5-18), tests/map.rs
(50-65), tests/type_info.rs (272-303) -/

/-- The declarations of these tests. -/
def defEnv : Env := env [
  ("Option<i32>", optionDef tI32), ("Option<bool>", optionDef tBool),
  ("Foo", ⟨.enum [.unit "A", .tuple "B" [fd "" tI32, fd "" tStr],
    .struct "C" [fd "a" tF32, fd "b" (.named "Option<bool>")]], false⟩),
  ("FooArr", ⟨.tupleStruct [fd "" (.array tI32 5)], false⟩),
  ("FooOpt", ⟨.struct [fd "x" tOpt], false⟩),
  ("FooMap", ⟨.struct [fd "array" (.array tI32 5), fd "tuple" (.tuple [.vec tI32, tBool])], false⟩),
  ("A", ⟨.struct [fd "a" tStr], false⟩), ("B", ⟨.tupleStruct [fd "" tStr], false⟩),
  ("C", ⟨.enum [.tuple "C" [fd "" tI32]], false⟩)]
/-- `T::type_descriptor().default_value()`. -/
def defaultOf (t : Ty) : Option (Option Value) := (describe defEnv 9 t).bind fun d => defaultValue d.graph 9 d.root
/-- `T::type_descriptor().as_enum().unwrap().variant(v).unwrap().default_value()`. -/
def variantDefault (t : Ty) (v : String) : Option (Option Value) :=
  (describe defEnv 9 t).bind fun d => (d.graph.node d.root).bind fun n =>
    match n with
    | .enum vs => (findVariant vs v).bind (defaultVariant (defaultValue d.graph 9))
    | _ => none
/-- `T::from_reflect(&d.unwrap())`. -/
def readBack (t : Ty) (d : Option (Option Value)) : Option Obj :=
  d.bind fun d => d.bind fun v => fromReflect defEnv t v.toObj
example : readBack (.named "Foo") (variantDefault (.named "Foo") "A") = some (.enumU (.derived "Foo") "A") := by cbv
example : readBack (.named "Foo") (variantDefault (.named "Foo") "B") =
    some (.enumT (.derived "Foo") "B" [i32 0, str ""]) := by cbv
example : readBack (.named "Foo") (variantDefault (.named "Foo") "C") =
    some (.enumS (.derived "Foo") "C" [("a", .scalar (.f32 0)), ("b", .enumU (.derived "Option<bool>") "None")]) := by
  cbv
example : readBack (.named "FooArr") (defaultOf (.named "FooArr")) =
    some (.tupleStruct (.derived "FooArr") [.array tI32 [i32 0, i32 0, i32 0, i32 0, i32 0]]) := by cbv
example : readBack (.tuple [tI32, tBool]) (defaultOf (.tuple [tI32, tBool])) =
    some (.tuple (.typed [tI32, tBool]) [i32 0, bool false]) := by cbv
example : readBack (.named "FooOpt") (defaultOf (.named "FooOpt")) =
    some (.struct (.derived "FooOpt") [("x", none_)]) := by cbv
example : (defaultOf (.named "FooMap")).bind (fun d => d.map fun v =>
    ((Obj.map tI32 (.named "FooMap") []).mapInsert defEnv (i32 1) v.toObj).2.mapIter.length) = some 1 := by cbv
/-- `T::type_descriptor().has_default_value()`. -/
def hasDefaultOf (t : Ty) : Option Bool := (describe defEnv 9 t).bind fun d => hasDefault d.graph 9 d.root
example : hasDefaultOf (.named "A") = some true := by cbv
example : hasDefaultOf (.named "B") = some true := by cbv
example : hasDefaultOf (.named "C") = some true := by cbv
example : hasDefaultOf (.tuple [tI32, tStr]) = some true := by cbv
example : hasDefaultOf (.array tI32 3) = some true := by cbv
example : hasDefaultOf (.map tStr tI32) = some true := by cbv
example : hasDefaultOf tI32 = some true := by cbv
example : hasDefaultOf (.array .value 3) = some false := by cbv
example : hasDefaultOf .value = some false := by cbv

/-! ## tests/list.rs -/

/-- `Vec::from([..])`. -/
def vec (l : List Int) : Obj := .vec tI32 (l.map i32)
example : (List.range 4).map ((vec [1, 2, 3]).fieldAt ·) = [some (i32 1), some (i32 2), some (i32 3), none] := by cbv
example : (List.range 4).map ((vec [1, 2, 3]).toValue.toObj.fieldAt ·) =
    [some (i32 1), some (i32 2), some (i32 3), none] := by cbv
example : fromReflect noDecls (.vec tI32) (vec [1, 2, 3]) = some (vec [1, 2, 3]) := by cbv
example : patch noDecls (vec [1, 2, 3]) (vec [42]) = vec [42, 2, 3] := by cbv
example : debugAs noDecls optPrint (some (.vec tI32)) (vec [1, 2, 3]) = .list [.text "1", .text "2", .text "3"] := by
  cbv
example : ((vec [1, 2, 3]).listTryRemove 2).1 = some (i32 3) := by cbv
example : (((vec [1, 2, 3]).listTryRemove 2).2.listTryRemove 2).1 = none := by cbv
example : (((vec [1, 2, 3]).listTryRemove 2).2.listTryRemove 1337).1 = none := by cbv

/-! ## tests/map.rs -/

/-- `BTreeMap::from([(1, 1)])`. -/
def map11 : Obj := .map tI32 tI32 [(i32 1, i32 1)]
example : map11.mapGet noDecls (i32 1) = some (i32 1) := by cbv
example : getEntry noDecls map11 (i32 1) tI32 = some (i32 1) := by cbv
example : (getEntryMut noDecls map11 (i32 1) tI32).map (·.get) = some (i32 1) := by cbv
/-- `BTreeMap::from([("foo".to_owned(), 1)])`. -/
def mapFoo : Obj := .map tStr tI32 [(str "foo", i32 1)]
example : mapFoo.mapGet noDecls (str "foo") = some (i32 1) := by cbv
example : getEntryStr noDecls mapFoo "foo" tI32 = some (i32 1) := by cbv
/-- `Foo(n)` of `exotic_key_type`. -/
def keyFoo (n : Int) : Obj := .tupleStruct (.derived "Foo") [i32 n]
/-- The declaration of `Foo`. -/
def keyEnv : Env := env [("Foo", ⟨.tupleStruct [fd "" tI32], false⟩)]
/-- `BTreeMap::from([(Foo(1), 1), (Foo(2), 2)])`. -/
def keyMap : Obj := .map (.named "Foo") tI32 [(keyFoo 1, i32 1), (keyFoo 2, i32 2)]
example : [1, 2, 3].map (fun n => keyMap.mapGet keyEnv (keyFoo n)) = [some (i32 1), some (i32 2), none] := by cbv
example : [1, 2, 3].map (fun n => getAt keyEnv keyMap [.get (keyFoo n).toValue] tI32) =
    [some (i32 1), some (i32 2), none] := by cbv

/-! ## tests/tuple.rs (7-28), tests/tuple_struct.rs (9-45) -/

/-- `TupleValue::new().with_field(1_i32).with_field(false)`. -/
def tv : Obj := (tupleValue [vI32 1, vBool false]).toObj
example : getIndexed tv 0 tI32 = some (i32 1) ∧ getIndexed tv 1 tBool = some (bool false) := by cbv
example : getIndexed (patch noDecls tv (tupleValue [vI32 42]).toObj) 0 tI32 = some (i32 42) := by cbv
example : getIndexed (patch noDecls tv (tupleValue [vI32 42]).toObj) 1 tBool = some (bool false) := by cbv
/-- `(1_i32, false)`. -/
def pair (n : Int) (b : Bool) : Obj := .tuple (.typed [tI32, tBool]) [i32 n, bool b]
example : getIndexed (pair 1 false) 0 tI32 = some (i32 1) ∧ getIndexed (pair 1 false) 1 tBool = some (bool false) := by
  cbv
example : patch noDecls (pair 1 false) (tupleValue [vI32 42]).toObj = pair 42 false := by cbv
/-- `TupleStructValue::new().with_field(1_i32).with_field(false)`. -/
def tsv : Obj := (tupleStructValue [vI32 1, vBool false]).toObj
example : getIndexed tsv 0 tI32 = some (i32 1) ∧ getIndexed tsv 1 tBool = some (bool false) := by cbv
example : getIndexed (patch noDecls tsv (tupleStructValue [vI32 42]).toObj) 0 tI32 = some (i32 42) := by cbv
example : getIndexed (patch noDecls tsv (tupleStructValue [vI32 42]).toObj) 1 tBool = some (bool false) := by cbv
/-- `A(n, b)`. -/
def tsA (n : Int) (b : Bool) : Obj := .tupleStruct (.derived "A") [i32 n, bool b]
/-- The declaration of `A`. -/
def tsEnv : Env := env [("A", ⟨.tupleStruct [fd "" tI32, fd "" tBool], false⟩)]
example : getIndexed (tsA 1 false) 0 tI32 = some (i32 1) ∧ getIndexed (tsA 1 false) 1 tBool = some (bool false) := by
  cbv
example : patch tsEnv (tsA 1 false) (tupleStructValue [vI32 42]).toObj = tsA 42 false := by cbv
example : fromReflect tsEnv (.named "A") (tsA 42 false).toValue.toObj = some (tsA 42 false) := by cbv
example : (tsA 42 false).posIter = [i32 42, bool false] := by cbv
example : ((tsA 42 false).fieldAtMut 1).map (fun p => p.put (patch tsEnv p.get (bool true))) = some (tsA 42 true) := by
  cbv

/-! ## tests/struct_.rs -/

/-- `Foo { field }`. -/
def foo (n : Int) : Obj := .struct (.derived "Foo") [("field", i32 n)]
/-- The declaration of `Foo`. -/
def fooEnv : Env := env [("Foo", ⟨.struct [fd "field" tI32], false⟩)]
example : (foo 42).field "field" = some (i32 42) := by cbv
example : valueGetStr fooEnv (foo 42).toValue.toObj "field" tI32 = some (i32 42) := by cbv
example : valueGetKey fooEnv (foo 42).toValue.toObj (str "field") tI32 = some (i32 42) := by cbv
example : patch fooEnv (foo 42) (structValue [("field", vI32 1337)]).toObj = foo 1337 := by cbv
example : (patch noDecls (structValue [("field", vI32 42)]).toObj (structValue [("field", vI32 1337)]).toObj).field
    "field" = some (i32 1337) := by cbv
example : fromReflect fooEnv (.named "Foo") (foo 0) = some (foo 0) := by cbv
example : (foo 0).namedIter.map (fun p => (p.1, fromReflect fooEnv tI32 p.2)) = [("field", some (i32 0))] := by cbv
example : (fromReflect noDecls .structValue (structValue [("foo", vI32 42)]).toObj).bind (·.field "foo") =
    some (i32 42) := by cbv
-- `box_dyn_reflect_as_reflect`: a box is its content
example : fromReflect fooEnv (.named "Foo") (patch fooEnv (foo 0) (structValue [("field", vI32 42)]).toObj) =
    some (foo 42) := by cbv
-- `deeply_nested`
/-- The declarations. -/
def deepEnv : Env := env [("Foo", ⟨.struct [fd "bar" (.named "Bar")], false⟩),
  ("Bar", ⟨.struct [fd "baz" (.named "Baz")], false⟩), ("Baz", ⟨.struct [fd "qux" tI32], false⟩)]
/-- The value. -/
def deep : Obj := .struct (.derived "Foo") [("bar", .struct (.derived "Bar")
  [("baz", .struct (.derived "Baz") [("qux", i32 42)])])]
example : (((getNamed deepEnv deep "bar" (.named "Bar")).bind (getNamed deepEnv · "baz" (.named "Baz"))).bind
    (getNamed deepEnv · "qux" tI32)) = some (i32 42) := by cbv

/-! ### `accessing_docs_in_type_info` (188-229) -/

/-- The declarations. -/
def docEnv : Env := env [
  ("Foo", ⟨.struct [fd "inner" (.vec (.map tStr (.vec (.named "Option<Inner>"))))], false⟩),
  ("Option<Inner>", optionDef (.named "Inner")),
  ("Inner", ⟨.enum [.struct "Variant" [fd "field" tStr]], false⟩)]
/-- The attributes of `Foo`. -/
def docAttrs : AttrEnv where
  item n := if n = "Foo" then
    (parseAttrs [.doc " Here are the docs.", .doc "", .doc " Foo bar."]).getD ⟨[], []⟩ else ⟨[], []⟩
  «variant» _ _ := ⟨[], []⟩
example : ((describe docEnv 9 (.named "Foo")).bind fun d => (d.graph.node d.root).map (typeDocs docAttrs d.root)) =
    some [" Here are the docs.", "", " Foo bar."] := by cbv
example : ((describe docEnv 9 (.named "Foo")).bind fun d => d.typeAt (keyPathMacro []
    [.dotIdent "inner", .bracket (.scalar (.int .usize 0)), .bracket (vStr "map_key"), .bracket (.scalar (.int .usize 0)),
      .colons "Some", .dotLit 0, .colons "Variant"])) =
    some (some (.variant (.struct "Variant" ["field"] [("field", tStr)]))) := by cbv
example : ((parseAttrs [.doc " Bingo!"]).map fun a => fieldAnn (variantNamedAnns [fd "field" tStr] [a]) "field") =
    some (some ⟨[], [" Bingo!"]⟩) := by cbv

/-! ### `consistent_iteration_order_of_struct_fields`, `.._struct_variant_fields` (231-330) -/

/-- The declarations. -/
def ordEnv : Env := env [("Outer", ⟨.struct [fd "inner" (.named "Inner")], false⟩),
  ("Inner", ⟨.struct [fd "b" tU32, fd "a" tU32], false⟩),
  ("InnerE", ⟨.enum [.struct "A" [fd "b" tU32, fd "a" tU32]], false⟩)]
example : (Obj.struct (.derived "Inner") [("b", .scalar (.int .u32 2)), ("a", .scalar (.int .u32 1))]).namedIter.map
    (·.1) = ["b", "a"] := by cbv
example : (((describe ordEnv 9 (.named "Inner")).bind (·.getType)).bind (·.asStruct)).map
    (fun s => s.fieldTypes.map fun f => f.map (·.name)) = some [some "b", some "a"] := by cbv
example : (Obj.enumS (.derived "InnerE") "A" [("b", .scalar (.int .u32 2)), ("a", .scalar (.int .u32 1))]).namedIter.map
    (·.1) = ["b", "a"] := by cbv
example : ((((describe ordEnv 9 (.named "InnerE")).bind (·.getType)).bind (·.asEnum)).bind (·.variant "A")).map
    (fun s => s.fieldTypes.map fun f => f.bind (·.name)) = some [some "b", some "a"] := by cbv

/-! ## tests/value.rs: `hash` (20-31) -/

-- a lookup succeeds on equal keys that feed the hasher the same
example : (vI32 1).beq (vI32 1) = true ∧ (vStr "foo").beq (vStr "foo") = true := by cbv
example : (vBool true).beq (vI32 1) = false ∧ (vBool true).beq (vStr "foo") = false := by cbv

/-! ## tests/key_path.rs -/

/-- The declarations of `works`. -/
def kpEnv : Env := env [
  ("A", ⟨.struct [fd "a" tI32, fd "b" (.named "B"), fd "c" (.named "C"), fd "d" (.map tStr tU32), fd "e" (.vec tF32)],
    false⟩),
  ("B", ⟨.struct [fd "c" tBool], false⟩), ("C", ⟨.enum [.struct "C" [fd "d" tStr]], false⟩)]
/-- `1.0`, `2.0`, `3.0`. -/
def f1 : Obj := .scalar (.f32 0x3F800000)
@[inherit_doc f1] def f2 : Obj := .scalar (.f32 0x40000000)
@[inherit_doc f1] def f3 : Obj := .scalar (.f32 0x40400000)
/-- The value, with `b.c` given. -/
def kpA (c : Bool) : Obj := .struct (.derived "A") [("a", i32 42), ("b", .struct (.derived "B") [("c", bool c)]),
  ("c", .enumS (.derived "C") "C" [("d", str "foo")]),
  ("d", .map tStr tU32 [(str "fourtytwo", .scalar (.int .u32 42))]), ("e", .vec tF32 [f1, f2, f3])]
/-- An index as `key_path!` makes it from an integer literal (an `i32`). -/
abbrev ix (n : Int) : PathTok := .bracket (vI32 n)
/-- `a.get_at::<T>(&key_path!(..))`. -/
def kpGet (p : List PathTok) (t : Ty) : Option Obj := getAt kpEnv (kpA true) (keyPathMacro [] p) t
example : kpGet [] (.named "A") = some (kpA true) := by cbv
example : kpGet [.dotIdent "a"] tI32 = some (i32 42) := by cbv
example : kpGet [.dotIdent "b", .dotIdent "c"] tBool = some (bool true) := by cbv
example : kpGet [.dotIdent "c", .colons "C", .dotIdent "d"] tStr = some (str "foo") := by cbv
example : atPath kpEnv (kpA true) (keyPathMacro [] [.dotIdent "c", .colons "DoesntExist"]) = none := by cbv
example : kpGet [.dotIdent "d", .bracket (vStr "fourtytwo")] tU32 = some (.scalar (.int .u32 42)) := by cbv
example : kpGet [.dotIdent "e", ix 0] tF32 = some f1 := by cbv
example : kpGet [.dotIdent "e", ix 1] tF32 = some f2 := by cbv
example : kpGet [.dotIdent "e", ix 2] tF32 = some f3 := by cbv
example : atPath kpEnv (kpA true) (keyPathMacro [] [.dotIdent "e", ix 3]) = none := by cbv
example : assign (getAtMut kpEnv (kpA true) (keyPathMacro [] [.dotIdent "b", .dotIdent "c"]) tBool) (bool false) =
    some (kpA false) := by cbv


/-- The `Debug` of the values in the path of `display`. -/
def dbgKey : Value → List Char
  | .scalar (.int _ n) => (toString n).toList
  | .scalar (.string s) => '"' :: s.toList ++ ['"']
  | _ => []
example : String.ofList (KeyPath.display dbgKey (keyPathMacro [] [.dotIdent "a", .dotLit 0, .dotIdent "b", .dotIdent "c",
    ix 1, .bracket (vStr "foo"), .colons "D", .dotIdent "e", ix 3])) = ".a.0.b.c[1][\"foo\"]::D.e[3]" := by cbv

/-- The declarations of `query_type_info_struct` and `query_type_info_enum`. -/
def qEnv : Env := env [("User", ⟨.struct [fd "employer" (.named "Company")], false⟩),
  ("Company", ⟨.struct [fd "countries" (.vec (.named "Country"))], false⟩),
  ("Country", ⟨.struct [fd "name" tStr], false⟩),
  ("Foo", ⟨.enum [.struct "A" [fd "a" tStr], .tuple "B" [fd "" tI32], .unit "C"], false⟩)]
/-- The path of `query_type_info_struct`. -/
def qPath : KeyPath := keyPathMacro [] [.dotIdent "employer", .dotIdent "countries", ix 0, .dotIdent "name"]
example : getAt qEnv (.struct (.derived "User") [("employer", .struct (.derived "Company") [("countries",
    .vec (.named "Country") [.struct (.derived "Country") [("name", str "Denmark")]])])]) qPath tStr =
    some (str "Denmark") := by cbv
/-- `T::type_descriptor().type_at(&path)`. -/
def typeAtOf (E : Env) (t : Ty) (p : KeyPath) : Option (Option TypeAt) := (describe E 9 t).bind (·.typeAt p)
example : typeAtOf qEnv (.named "User") qPath = some (some (.ty tStr (.scalar .string))) := by cbv
example : typeAtOf qEnv (.named "Foo") (keyPathMacro [] [.colons "A", .dotIdent "a"]) =
    some (some (.ty tStr (.scalar .string))) := by cbv
example : typeAtOf qEnv (.named "Foo") (keyPathMacro [] [.colons "B", .dotLit 0]) =
    some (some (.ty tI32 (.scalar (.int .i32)))) := by cbv
example : typeAtOf qEnv (.named "Foo") (keyPathMacro [] [.colons "B", ix 0]) = some none := by cbv
example : typeAtOf qEnv (.named "Foo") (keyPathMacro [] [.colons "C"]) = some (some (.variant (.unit "C"))) := by cbv
-- `select_tuple_field`
example : getAt tsEnv (tsA 42 true) (keyPathMacro [] [.dotLit 0]) tI32 = some (i32 42) ∧
    getAt tsEnv (tsA 42 true) (keyPathMacro [] [.dotLit 1]) tBool = some (bool true) := by cbv
-- `breadcrumbs`
/-- Everything an iterator yields in `n` steps. -/
def crumbs : Nat → Breadcrumbs → List (Option KeyPath)
  | 0, _ => []
  | n + 1, b => b.next.1 :: crumbs n b.next.2
example : crumbs 5 (KeyPath.breadcrumbs (keyPathMacro [] [.dotIdent "a", .dotIdent "b", .dotIdent "c", .dotIdent "d"])) =
    [some [.named "a"], some [.named "a", .named "b"], some [.named "a", .named "b", .named "c"],
      some [.named "a", .named "b", .named "c", .named "d"], none] := by cbv

/-! ## tests/meta.rs (5-31), tests/type_info.rs: `complex_meta_type` (77-88) -/

/-- The attributes of the types of these tests. -/
def metaAttrs : AttrEnv where
  item n := (parseAttrs (if n = "Foo" then [.reflectMeta [("foo", str "bar"), ("baz", i32 42)]]
    else if n = "Foo2" then [.reflectMeta [("a", .tupleStruct (.derived "Foo2") [i32 1337])]] else [])).getD ⟨[], []⟩
  «variant» _ _ := ⟨[], []⟩
/-- The declarations. -/
def metaEnv : Env := env [("Foo", ⟨.struct [], false⟩), ("Foo2", ⟨.tupleStruct [fd "" tI32], false⟩)]
/-- `T::type_descriptor().get_type().meta(key)`. -/
def metaOf (n key : String) : Option Value := (describe metaEnv 9 (.named n)).bind fun d =>
  (d.graph.node d.root).bind fun nd => typeMeta metaAttrs d.root nd key
example : metaOf "Foo" "foo" = some (vStr "bar") := by cbv
example : metaOf "Foo" "baz" = some (vI32 42) := by cbv
example : getMeta metaEnv (.named "Foo2") (metaOf "Foo2" "a") =
    some (.tupleStruct (.derived "Foo2") [i32 1337]) := by cbv

/-! ## tests/type_info.rs -/

/-- The declarations. -/
def tiEnv : Env := env [("Foo", ⟨.struct [fd "n" tI32, fd "foos" (.vec (.named "Foo"))], false⟩),
  ("FooT", ⟨.tupleStruct [fd "" tI32], false⟩), ("BarT", ⟨.tupleStruct [fd "" tBool], false⟩)]
/-- `core::any::type_name` on the types of the test. -/
def tiName (t : Ty) : String :=
  if t = .named "Foo" then "mirror_mirror::tests::type_info::struct_::Foo"
  else if t = .named "FooT" then "mirror_mirror::tests::type_info::type_to_root::Foo"
  else if t = .vec (.named "Foo") then "alloc::vec::Vec<mirror_mirror::tests::type_info::struct_::Foo>"
  else if t = tI32 then "i32"
  else ""
/-- `Foo::type_descriptor().get_type().as_struct()`. -/
def tiFoo : Option StructType := ((describe tiEnv 9 (.named "Foo")).bind (·.getType)).bind (·.asStruct)
example : ((describe tiEnv 9 (.named "Foo")).bind (·.getType)).map (·.typeName tiName) =
    some "mirror_mirror::tests::type_info::struct_::Foo" := by cbv
example : tiFoo.map (·.typeName tiName) = some "mirror_mirror::tests::type_info::struct_::Foo" := by cbv
example : tiFoo.map (fun s => s.fieldTypes.map fun f => f.map (·.name)) = some [some "n", some "foos"] := by cbv
example : ((tiFoo.bind (·.fieldType "foos")).bind (·.getType)).map (·.typeName tiName) =
    some "alloc::vec::Vec<mirror_mirror::tests::type_info::struct_::Foo>" := by cbv
example : (((tiFoo.bind (·.fieldType "foos")).bind (·.getType)).bind (·.asList)).map (·.typeName tiName) =
    some "alloc::vec::Vec<mirror_mirror::tests::type_info::struct_::Foo>" := by cbv
example : ((((tiFoo.bind (·.fieldType "foos")).bind (·.getType)).bind (·.asList)).bind (·.elementType)).map
    (·.typeName tiName) = some "mirror_mirror::tests::type_info::struct_::Foo" := by cbv
example : ((tiFoo.bind (·.fieldType "n")).bind (·.getType)).map (·.typeName tiName) = some "i32" := by cbv
example : ((tiFoo.bind (·.fieldType "n")).bind (·.getType)).bind (·.asScalar) = some (.int .i32) := by cbv
-- `type_to_root`
example : ((((describe tiEnv 9 (.named "FooT")).bind (·.getType)).bind (·.asTupleStruct)).bind
    (·.intoTypeDescriptor.getType)).map (·.typeName tiName) =
    some "mirror_mirror::tests::type_info::type_to_root::Foo" := by cbv
-- `two_types`, `how_to_handle_generics`
/-- The scalar type of the first field. -/
def firstScalar (n : String) : Option ScalarKind := (((((describe tiEnv 9 (.named n)).bind (·.getType)).bind
  (·.asTupleStruct)).bind (·.fieldTypeAt 0)).bind (·.getType)).bind (·.asScalar)
example : firstScalar "FooT" = some (.int .i32) ∧ firstScalar "BarT" = some .bool := by cbv

/-! ## tests/simple_type_name.rs: what is written for the syntax tree of `core::any::type_name` -/

/-- A path without generic arguments on any but the last segment. -/
def path (mods : List String) (n : String) (args : List SynTy) : SynTy :=
  .path none false ((mods.map (SynSeg.mk · .none)) ++ [.mk n (if args.isEmpty then .none else .angle (args.map .ty))])
/-- `i32`. -/
def sI32 : SynTy := path [] "i32" []
/-- `bool`. -/
def sBool : SynTy := path [] "bool" []
/-- `alloc::string::String`. -/
def sString : SynTy := path ["alloc", "string"] "String" []
/-- `alloc::vec::Vec<t>`. -/
def sVec (t : SynTy) : SynTy := path ["alloc", "vec"] "Vec" [t]
/-- `core::option::Option<t>`. -/
def sOption (t : SynTy) : SynTy := path ["core", "option"] "Option" [t]
/-- `alloc::collections::btree::map::BTreeMap<k, v>`. -/
def sMap (k v : SynTy) : SynTy := path ["alloc", "collections", "btree", "map"] "BTreeMap" [k, v]
example : sString.write = some "String" := by cbv
example : sI32.write = some "i32" := by cbv
example : sBool.write = some "bool" := by cbv
example : (SynTy.tuple []).write = some "()" := by cbv
example : (SynTy.tuple [sI32]).write = some "(i32,)" := by cbv
example : (SynTy.tuple [sI32, sString]).write = some "(i32, String)" := by cbv
example : (sVec sI32).write = some "Vec<i32>" := by cbv
example : (sVec (.ref none false (.tuple []))).write = some "Vec<&()>" := by cbv
example : (sVec (.ref none true (.tuple []))).write = some "Vec<&mut ()>" := by cbv
example : (sOption sString).write = some "Option<String>" := by cbv
example : (sMap sI32 sString).write = some "BTreeMap<i32, String>" := by cbv
example : (sMap (sVec (.tuple [sI32, sOption sBool])) sString).write =
    some "BTreeMap<Vec<(i32, Option<bool>)>, String>" := by cbv
example : (SynTy.array sI32 (.lit (.int "10"))).write = some "[i32; 10]" := by cbv
example : (SynTy.array (sMap sI32 sI32) (.lit (.int "10"))).write = some "[BTreeMap<i32, i32>; 10]" := by cbv
example : (SynTy.path none false [.mk "mirror_mirror" .none, .mk "tests" .none,
    .mk "Foo" (.angle [.const (.lit (.int "10"))])]).write = some "Foo<10>" := by cbv
-- `type_inside_unnamed_const`
example : String.ofList (stripUnnamed "mirror_mirror::tests::type_inside_unnamed_const::_::Bar<alloc::string::String>".toList)
    = "mirror_mirror::tests::type_inside_unnamed_const::Bar<alloc::string::String>" := by cbv
example : (path ["mirror_mirror", "tests", "type_inside_unnamed_const"] "Bar" [sString]).write = some "Bar<String>" := by
  cbv

/-! ## tests/mod.rs: `from_reflect_with` (251-297) -/

/-- The declarations. -/
def withEnv : Env := env [("A", ⟨.struct [fd "a" tF32], false⟩), ("B", ⟨.tupleStruct [fd "" tF32], false⟩),
  ("C", ⟨.enum [.tuple "C" [fd "" tF32], .struct "D" [fd "d" tF32]], false⟩)]
/-- `clamp_ratio`, on the numbers that occur: 100.0 becomes 1.0 and -100.0 becomes 0.0. -/
def clampRatio (o : Obj) : Option Obj :=
  match o with
  | .scalar (.f32 b) => some (.scalar (.f32 (if b = 0x42C80000 then 0x3F800000 else if b = 0xC2C80000 then 0 else b)))
  | _ => none
/-- Every field carries it. -/
def withAll : WithFns := fun _ _ _ => some clampRatio
/-- 100.0, -100.0 and 0.0. -/
def f100 : Obj := .scalar (.f32 0x42C80000)
@[inherit_doc f100] def fm100 : Obj := .scalar (.f32 0xC2C80000)
@[inherit_doc f100] def f0 : Obj := .scalar (.f32 0)
/-- `A { a }`. -/
def wA (x : Obj) : Obj := .struct (.derived "A") [("a", x)]
/-- `B(x)`. -/
def wB (x : Obj) : Obj := .tupleStruct (.derived "B") [x]
/-- `C::C(x)`. -/
def wC (x : Obj) : Obj := .enumT (.derived "C") "C" [x]
/-- `C::D { d }`. -/
def wD (x : Obj) : Obj := .enumS (.derived "C") "D" [("d", x)]
example : fromReflectW withEnv withAll (.named "A") (wA f100) = some (wA f1) := by cbv
example : fromReflectW withEnv withAll (.named "A") (wA fm100) = some (wA f0) := by cbv
example : fromReflectW withEnv withAll (.named "B") (wB f100) = some (wB f1) := by cbv
example : fromReflectW withEnv withAll (.named "B") (wB fm100) = some (wB f0) := by cbv
example : fromReflectW withEnv withAll (.named "C") (wC f100) = some (wC f1) := by cbv
example : fromReflectW withEnv withAll (.named "C") (wC fm100) = some (wC f0) := by cbv
example : fromReflectW withEnv withAll (.named "C") (wD f100) = some (wD f1) := by cbv
example : fromReflectW withEnv withAll (.named "C") (wD fm100) = some (wD f0) := by cbv

end Mirror.RepoTests
