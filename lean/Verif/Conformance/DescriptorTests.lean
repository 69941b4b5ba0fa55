import Verif.Conformance.RepoTests
import Verif.Model.BuildFull
import Verif.Model.TypeEq
import Verif.Model.WireDefault

/-!
# The tests of whole descriptors, run on the model

`opaque_default`, `basic_eq` and `basic_hash` of `/repo/crates/mirror-mirror/src/tests/type_info.rs`, on the model of
descriptors with all that their nodes store. The hash of a `TypeId` is a parameter of that model; here types have
distinct numbers. `basic_hash` is run on what is fed to the hasher, whose keys are random: equal hashes are equal
feeds, and different hashes need different feeds.
-/

namespace Mirror.RepoTests

/-- Ids and names of the types of these tests; there are no attributes. -/
def descFacts : Facts where
  id
    | .named "Foo" => 1
    | .named "Bar" => 2
    | .scalar .bool => 3
    | _ => 4
  name
    | .named n => n
    | _ => "?"
  item _ := ⟨[], []⟩
  field _ _ := ⟨[], []⟩
  pos _ _ := ⟨[], []⟩
  «variant» _ _ := ⟨[], []⟩
  variantField _ _ _ := ⟨[], []⟩
  variantPos _ _ _ := ⟨[], []⟩

/-- The two types of `basic_eq` (tests/type_info.rs:208-216). -/
def eqEnv : Env := env [("Foo", ⟨.tupleStruct [fd "0" tI32], true⟩), ("Bar", ⟨.struct [fd "b" tBool], true⟩)]

/-- `basic_eq` (tests/type_info.rs:218-231). -/
example : ["Foo", "Bar"].map (fun a => ["Foo", "Bar"].map fun b =>
      match describeW eqEnv descFacts 5 (.named a), describeW eqEnv descFacts 5 (.named b) with
      | some x, some y => some (WireDescriptor.eh.eq x y)
      | _, _ => none) =
    [[some true, some false], [some false, some true]] := by cbv

/-- The two types of `basic_hash` (tests/type_info.rs:238-248). -/
def hashEnv : Env := env [("Foo", ⟨.struct [fd "a" tI32], true⟩), ("Bar", ⟨.struct [fd "b" tBool], true⟩)]

/-- `basic_hash` (tests/type_info.rs:250-271). -/
example : ["Foo", "Bar"].map (fun a => ["Foo", "Bar"].map fun b =>
      match describeW hashEnv descFacts 5 (.named a), describeW hashEnv descFacts 5 (.named b) with
      | some x, some y => some (decide (WireDescriptor.eh.hash x = WireDescriptor.eh.hash y))
      | _, _ => none) =
    [[some true, some false], [some false, some true]] := by cbv

/-- The descriptor of `Opaque` of `opaque_default`, built by hand (tests/type_info.rs:184-197). -/
def opaqueDesc : WireDescriptor := ⟨1, [(1, some (.opaque ⟨"Opaque", [], some (.tupleStruct [vI32 1337])⟩))]⟩

/-- `opaque_default` (tests/type_info.rs:199-203). -/
example : (match wireDefault 10 opaqueDesc 1 opaqueDesc.root with
    | some (.ok (some v)) => getAt noDecls v.toObj (keyPathMacro [] [.dotLit 0]) tI32
    | _ => none) = some (i32 1337) := by cbv

end Mirror.RepoTests
