# Formal model of mirror-mirror: design

The model is in `lean/Verif/`. `Model/*` holds definitions that transcribe the
Rust code, each citing file and lines in `/repo`. `Spec/*` holds small
specifications that do not mention the model's algorithms. `Lemmas/*` holds
helper lemmas, `Props/*` the property theorems (one file per group of
properties) with their non-vacuity examples. `MANIFEST.json` lists, for every
property of `properties.jsonl`, its status and its theorems.

Paths below are relative to `/repo/crates/mirror-mirror/src` (S) and
`/repo/crates/mirror-mirror-macros/src/derive_reflect` (M).

## Trusted base

* Lean 4.33.0's kernel, and the axioms `propext`, `Classical.choice`,
  `Quot.sound` (every theorem depends on a subset of these three, checked with
  `#print axioms`; nothing else is used: no `sorry`, no own axioms, no
  `native_decide`, no `bv_decide`).
* The reading of the Rust source: nothing is extracted mechanically. Each
  definition cites what it transcribes.
* The assumptions listed under "Simplifications", and the hypotheses that
  theorems state explicitly (see "Recurring hypotheses").

## What is modelled

| model file | code |
|---|---|
| `Model/Scalar` | the 16 scalar kinds, IEEE `==`, `OrderedFloat` order (S lib.rs 547-682, value.rs 64-178) |
| `Model/Value` | `Value`, its `PartialEq`, `Ord`, `Hash` (S value.rs, struct_.rs, tuple*.rs, enum_.rs) |
| `Model/Obj` | types, declarations, reflected objects, `downcast`, `type_info` ids |
| `Model/Reflect` | `to_value`, `from_reflect`, `patch`, `clone_reflect`, `reflect_eq`, field accessors for every impl: scalars, `NonZero`, `String`, derived structs / tuple structs / enums (M struct_named.rs, tuple_struct.rs, enum_.rs), `Vec`, arrays, `BTreeMap`, tuples, `Box`, `Value` and the dynamic values |
| `Model/Path` | `KeyPath`, `at`, `at_mut`, writing through `at_mut`, `Display`, breadcrumbs (S key_path.rs) |
| `Model/Containers` | `Map` / `List` operations, builders of dynamic values, field iterators |
| `Model/TypeInfo` | type graph, `DescribeType::build`, views (S type_info/graph.rs, mod.rs) |
| `Model/Cache` | the descriptor cache as a step machine of threads, with panics, lock poisoning and nested calls (S type_info/mod.rs 44-84) |
| `Model/TypePath` | `type_at` (S type_info/mod.rs 1383-1657) |
| `Model/Default` | `default_value`, `has_default_value` (S type_info/mod.rs) |
| `Model/Visit` | `try_visit` (S try_visit.rs) |
| `Model/Access` | `ReflectRef` / `ReflectMut` / `ReflectOwned`, `downcast_ref`, `get_field` (S lib.rs, get_field.rs) |
| `Model/Duration` | the `Duration` impl (S foreign_impls/via_scalar.rs) |
| `Model/Foreign` | the declarations of `Option`, `Result`, the ranges, `Infallible`, glam and macaw types (S foreign_impls/mod.rs, glam.rs, macaw.rs) |
| `Model/Serde` | the derived `Serialize`/`Deserialize` of `Value`, `StructValue`, `EnumValue`, `EnumValueKind`, `TupleStructValue`, `TupleValue`, `Key`, `KeyPath`, over serde's data model |
| `Model/SerdeType` | the nodes of the type graph with all their fields, and the derived `Serialize`/`Deserialize` of `TypeDescriptor`, `TypeGraph`, `TypeNode` and every node type (S type_info/graph.rs, mod.rs), put together from codecs for the field types |
| `Model/Hygiene` | the statements generated for struct-like enum variants with their variables, run under Rust's name resolution: `field`, `field_at`, `name_at`, `to_value`, `patch` (M enum_.rs) |
| `Model/Attrs` | the grammar of `#[reflect(..)]`, the `HashMap` check, the choice of expansion, commas in generated literals (M attrs.rs, mod.rs, struct_named.rs, tuple_struct.rs, enum_.rs) |
| `Model/Ops` | `==` and `to_owned` on `dyn Reflect`, `Clone for ReflectOwned` (S lib.rs) |
| `Model/Speedy` | derived `speedy::Readable`/`Writable` of `Value`, `StructValue`, `EnumValue`, `TupleValue`, `TupleStructValue`, `KeyPath`, `Key`, `ScalarOwned`, `ScalarType`, `TypeDescriptor`, graph nodes |
| `Model/TypeAtDefault` | `TypeAtPath::default_value`, `TypeAtPath::has_default_value` (S type_info/mod.rs) |
| `Model/Into` | `From<..> for Value`, `FromIterator`, makers and iterators of key paths (value.rs, key_path.rs, struct_.rs, tuple.rs, tuple_struct.rs, foreign_impls) |
| `Model/PathEq` | derived `==` and `Hash` of `KeyPath`, `Key`, `NamedOrNumbered` (key_path.rs) |
| `Model/DebugDeep` | `Debug for dyn Reflect` at every depth: `Reflect::debug` of scalars, derived types, tuples, lists, arrays, maps, boxes and dynamic types (S lib.rs, value.rs, struct_.rs, tuple.rs, tuple_struct.rs, enum_.rs, foreign_impls, M attrs.rs) |
| `Model/WireDefault` | `default_value`, `has_default_value` on any graph: built, read, or with hand-written `OpaqueNode`s (S type_info/mod.rs, graph.rs) |
| `Model/TypeEq` | derived `==` and `Hash` of `TypeDescriptor`, `TypeGraph`, the node types and `Type` (S type_info/graph.rs, mod.rs) |
| `Model/BuildFull` | `DescribeType::build` of every type with type names, metadata and docs, and the constructors of the nodes (S type_info/graph.rs, mod.rs, M derive_reflect/*.rs `expand_describe_type`) |
| `Model/Names` | `SimpleTypeName`, pretty printing (S type_info/simple_type_name.rs, pretty_print.rs) |
| `Model/Mut` | `fields_mut`, `iter_mut`, `get_field_mut` (S struct_.rs, enum_.rs, get_field.rs; M) |
| `Model/Panic` | skipped variants, and which calls panic because of them (M enum_.rs) |
| `Model/Extract` | `into_type_descriptor` (S type_info/mod.rs) |
| `Model/With` | `from_reflect` with user functions on fields (`from_reflect_with`; M struct_named.rs, tuple_struct.rs, enum_.rs) |
| `Model/NodeId` | the build of `Model/TypeInfo` with ids given by any hash function (S type_info/graph.rs) |
| `Model/TypeView` | `Type`, `StructType`, `EnumType`, `Variant`, ... and all their accessors (S type_info/mod.rs) |
| `Model/Meta` | `meta(..)` attributes and doc comments, `GetMeta` (M attrs.rs; S type_info/mod.rs, graph.rs) |
| `Model/Debug` | `reflect_debug` (S lib.rs) |
| `Model/Impl` | `ReflectRef` with the methods of its trait objects over an arbitrary implementation (lib.rs, struct_.rs, tuple_struct.rs, tuple.rs, enum_.rs, array.rs, list.rs, map.rs); `at` (key_path.rs) and `reflect_eq` (reflect_eq.rs) over it |
| `Model/ImplFrom` | `from_reflect` of the derived and built-in types (struct_named.rs, tuple_struct.rs, enum_.rs of the macros; vec.rs, array.rs, btree_map.rs, tuple.rs, via_scalar.rs, struct_.rs, enum_.rs) from any implementation of `Reflect` |
| `Model/ImplPatch` | `patch` of the derived and built-in types (struct_named.rs, tuple_struct.rs, enum_.rs of the macros; vec.rs, array.rs, btree_map.rs, tuple.rs, struct_.rs, tuple_struct.rs, enum_.rs, via_scalar.rs) with any implementation of `Reflect` |
| `Model/ImplVisit` | `try_visit` with any implementation of `Reflect` (try_visit.rs) |
| `Model/ImplMut` | `at_mut` with any implementation of `Reflect` (key_path.rs) |
| `Model/ImplDebug` | `reflect_debug` with any implementation of `Reflect` (lib.rs) |
| `Model/ImplTyped` | `get_at`, `get_at_mut`, `get_field`, `get_field_mut`, `downcast_ref`, `downcast_mut` with any implementation of `Reflect` (key_path.rs, get_field.rs, lib.rs) |

## The universe

* `Scalar`: the 16 scalar kinds. Integers are a kind plus a mathematical `Int`
  (theorems hold for every `Int`, so in particular for those in range; the only
  wrapping operation, `value_to_usize`, is modelled with its wrap). Floats are
  bit patterns with IEEE `==` and the `OrderedFloat` order computed on the bits.
* `Value`: the dynamic value (S value.rs), with `StructValue` as a name list
  plus an association list, `EnumValue` with its three kinds, and `Map` as an
  association list kept sorted by `Value`'s own order.
* `Ty`: type expressions (scalars, NonZero, tuples, Vec, arrays, BTreeMap, Box,
  Value and the dynamic value types, and *named* derived types); `Env` maps type
  names to declarations (struct / tuple struct / enum with fields, skip flags,
  opt-outs), so mutually recursive types are covered. Generic types (Option,
  Result, Range...) are derived in the code too and appear as named types after
  monomorphisation.
* `Obj`: a reflected object, i.e. what sits behind `&dyn Reflect`, tagged with
  enough type information to decide `downcast_ref`. Skipped fields are `hidden`
  payloads. `HasTy` says an object is a proper value of a type.

Panics are explicit outcomes (`none`, `.panic`, `PrintErr.panic`), and so is
unbounded recursion: functions that may not terminate in Rust take the depth of
the call stack as fuel, and a theorem that something diverges says that every
fuel is used up.

## Recurring hypotheses

* `DeclsOK E`: declared names are distinct (Rust rejects the rest). 
* `OrdLaws E`: the `Ord` of map key types is a total order, that of `Value`
  being the modelled one. `KeysShown E`: it does not separate keys whose
  `Value`s are equal.
* `SkipsLast E`: in tuple structs and tuple variants `#[reflect(skip)]` is only
  on trailing fields. Where the code is wrong without it a theorem says so.
  Most theorems ask less, of the value at hand only: `NoGaps` (no gap anywhere in it),
  `GapFree` (none at its root), `EnumsGapFree` (none inside its enums), `ClearPath` (a
  path steps over none); a value of a `SkipsLast` type has none (`HasTy.noGaps`).
* `HasTy E t o`: `o` is a value of type `t`.
* `describe E fuel t = some d`: the descriptor computation returned.

All of them are met by the demo environment of `Lemmas/Demo.lean`; the examples
beside the theorems show it.

## Per property

| id | model | proof |
|----|-------|-------|
| C01 C02 C04 | `toValue`, `fromReflect` | induction on typing; counterexamples for tuple-positioned skips and arrays |
| C03 | `Value.toObj`, `toValue` | induction on `Value` |
| C05 | `fromReflect`, `HasTy` | induction on the source object |
| C06 | `cloneReflect` (none = panic) | corollary of C01 |
| C07-C13 | `patch` | induction on the patch object; exact per-constructor effect |
| C10 C11 exactly | `patch` against `SelfPatches`, `enumsReset`, `PatchFills`, `ValueFills` (`Spec/PatchSelf`) | induction on the patched object; field lists position by position; one hit per map key |
| C14-C19 | `reflectEq : Option Bool` | induction on size; counterexamples for duplicate names, arrays, key conversion |
| C20 C21 | `Value.cmp`, `Value.hashFeed` | induction; lexicographic orders |
| C22 C25 | Map / List operations | refinement to finite maps / plain lists over histories |
| C23 C24 | builders | induction over call sequences |
| C26 | iterator state machines | induction over calls; complete iff `GapFree` |
| C27-C32 | `at`, `modifyAt`, `typeAt`, `KeyPath` | induction on paths |
| C33-C35 | `TypeGraph`, `build` with fuel | invariant over builds; termination measure; divergence for all recursive types of the bad shape |
| C36 | step machine of threads over the cache | invariant over all interleavings |
| C59 | the same machine, with metadata expressions that panic or nest, and lock poisoning | invariants; the claim is false and its negation is proved for all schedules |
| C37 C49 | declaration lists versus object accessors | per layout; C37 holds of a value iff it is `GapFree` |
| C38-C40 | `defaultValue`, `hasDefault` with fuel | induction on fuel; characterisation of termination |
| C41 C42 | `tryVisit` | induction on typing; visitor with state and error |
| C43 | `SynTy.write`, `stripUnnamed`, parser as a parameter | mutual induction on syntax; induction on path text |
| C44 | `prettyRoot` over a described type | induction on field and variant lists |
| C50 | `fromReflect` against the relation `ConvertsTo` | induction on source size; one case per kind of type |
| C51 | `patch` against the relation `PatchesTo` | induction on the size of the patch; uniqueness by least fixed point |
| C45 C47 | `View`, `Obj.anyTy`, `Obj.downcast`, `getNamed`, `valueGetKey`..., with the Rust type of the reference each accessor hands out | case analysis with `HasTy` |
| C52 C53 | `fieldAtMut`, `Slots`, `getNamedMut`... against single assignments | induction on the field list; fold of assignments |
| C54 C55 | values with skipped variants (`Env.full`), `toValuePanics`, `fromReflectPanics`, `patchPanics`, `reflectEqPanics` | induction on the value; a panic needs a skipped variant inside |
| C56 | `intoDescriptor` against the type's own descriptor | two graphs that agree on everything reachable from the part give the same answers; induction on paths and fuel |
| C60 | every accessor of every view, against `ViewsCorrect` (`Spec/TypeView`) | bisimulation between declarations and views |
| C61 | `==` on descriptors and views | equal graphs exactly if the types contain each other |
| C62 | `buildH`: `build` with a hash function for ids | simulation by `build` without collisions; pigeonhole for the negation; closedness invariant for any hash |
| C63 | `fromReflectW`: `from_reflect` with a function per field | least relation `ConvertsToW`; induction on the source; conservative over `fromReflect`; negation by the clone shortcut |
| C64 | the library's own declarations, as `TyDef`s with type parameters | the general theorems at these declarations, for all parameters |
| C65 | the derived serde implementations, as maps to and from serde's data model | induction on the value; `Storable` says what the Rust type can hold |
| C66 | the same, `fromReflect`, the panic predicates | induction on the data (reads are `Storable`) and on the type (conversion) |
| C67 | the derived serde implementations of descriptors | each codec is exact: it reads back what it writes, and reads only `Storable` values; exactness is closed under sequences, maps, options, structs and enums |
| C68 | navigation (`Model/TypeView`) of a descriptor read from data | induction on the walk: what is shown is the node of a reachable id; panics are dangling ids and listed fields that are missing |
| C69 | the generated statements (`Model/Hygiene`) in an environment where the innermost binding wins | evaluation of the statements for any list of fields; exact sets of field names for which each function is right, wrong, or does not compile |
| C70 | `getAt`, `getAtMut`, `atRefTy` | induction on the path, then as C47; assignments by C28, types by C29 |
| C71 | `parseItem`, `parseInner`, `derive` over token trees; expression and path parsers are parameters | grammar as relations on streams, loops by induction on the length of the stream, meaning of options field by field |
| C72, C15 C16 value by value | `reflectEq` against `EqualTo` (`Spec/Equal`), the least relation closed under one step of comparison in terms of the accessors | one step of the code is one step of the relation; induction on the first value; at every gap a counterexample is built from the value's own `Value` |
| C73 | all modelled operations against `SeenAs` (`Spec/Unseen`): equal except inside skipped fields, at any depth | each operation commutes with replacing the contents of all skipped fields by their default (`Obj.reset`); injectivity of `to_value` up to that by induction on typing, maps via uniqueness of sorted permutations |
| C74 | `dynEq`, `toOwned`, `View.clone` (`Model/Ops`) | from C06 exactly, C14 exactly and C73 |
| C75 | `Bin`, `Speedy` and its codecs (`Model/Speedy`): derived speedy implementations put together from what speedy does for the types of the fields, over any layout of the primitives; the little endian layout | `Bin.Faithful` (written iff short, read back with any rest, reads only what the type holds) for every combinator; for `Value` by induction on the value with a depth bound, and a separate proof that the bound does not matter |
| C76 | `TypeAt.defaultValue`, `TypeAt.hasDefault` (`Model/TypeAtDefault`) with `TypeAt.typeAt` and `atPath` | one step of a path at a time, for any type graph; `HoldsDefault` says which keys lead into a default, `Spelled` puts variant keys into a path |
| C77 | `Spec/Edit` runs `atMutPath` and then `patch`, `listPush`, `listPop`, `listTryRemove`, `mapInsert`, `mapRemove` or an assignment | a part is a position in the list of parts (`Lemmas/Kids`); changes at different positions commute, and paths that diverge go on to diverge (`Lemmas/Edit`); schedules by moving an edit before those of other clients |
| C78 | `Source.into`, `svFromIter`, `tvFromIter`, `tsvFromIter`, `PathIter` and the makers of keys and paths (`Model/Into`) | by cases over the impls; builders by the theorems of C23 and C24; the iterator by the window it has left |
| C79 | `patch`, `atMutPath`, `svSetField` as they are; `Spec/Address` builds the value that mentions one part (`wrapAll`) and says when a way leads to a part (`Leads`) | one wrapper at a time (`step_patch`), `()` is neutral for everything that is not itself `()`; then by induction on the way; the general form by one step into a patched value (`patch_atKey`) |
| C80 | `==` and `Hash` of key paths (`Model/PathEq`), everything else as it is; `Spec/Interchange`: `SameShown` is `x.to_value() == y.to_value()` | a representative of each class of `==` (`Value.canon`: one NaN, one zero); `==` is equality of representatives; every operation commutes with taking them; `to_value` is injective on a type up to skipped fields |
| C81 | `patch` as it is; `Spec/PatchHistory`: `DoNotMeet` (no place both have something for), `Covers` (the later patch overwrites all of the earlier one), `patchAll` | on a type without dynamic parts a patch acts on every component as a constant or the identity or component by component, so composition of patches is again a patch that `Forgets`; commutation by induction on `DoNotMeet` with the key-wise action on maps; permutations by `List.Perm` induction; the `EnumValue` counterexample is proved for every value in another variant |
| C82 | `Model/DebugDeep`: `debugAs`, `Reflect::debug` of every type down to plain text, with the own `Debug`s and the printing of leaves as parameters; `Spec/DebugDeep`: `NoPanic`, `TextFaithful`, `UserFaithful`, `UserSkips`, `NoTuples` | well-founded recursion on the value unfolded layer by layer; references have the type they should (`HasTy.nameRef`, `posRef`, `entryRef`), so nothing panics; output of `reset` is the output (skipped fields); injectivity by induction on size, both for `reflect_debug` and `debug`, down to the representatives of C80; tuples, lists of `Value`s and paths as universal counterexamples |
| C83 | nothing new in the model: `Obj.copied` is `to_value` seen as `dyn Reflect`; `Spec/StandIn`: `ReadsBack`, `Taken`, `PathFits`, `PatchesAlike`, `Act.Fits`, `EditsFit` say when an edit means the same for the copy | simulation: copying commutes with every step of a path, every place, every list and map operation and (induction on `PatchesAlike`) with `patch`; then induction over the history; back by C02's round trip; five universal counterexamples, one for each way an edit can fail to fit |
| C84 | nothing new in the model; `Spec/Versions`: `Readable E E' t t'` compares two sets of declarations, as a simulation between types (so recursive types are covered), without mentioning values or conversion | sufficiency: induction on the size of the value, one characterisation of `from_reflect` succeeding per type; necessity: a type all of whose values are read fits, by building values that differ in one field (`fillN`) or have a fresh variant name; three universal negatives |
| C85 | nothing new in the model; `Spec/WriteBack`: `Echo x v` (`v` does not disagree with `x`, through the accessors of both), `ViewOf` (C84's simulation plus: map keys are read without loss, dynamic values are not read as derived ones) | conversion of an echo gives the value (induction on typing); patching with an echo keeps what is shown (induction on `Echo`); what a view reads is an echo (induction on the size of the value, as for C84) |
| C86 | nothing new in the model; `Spec/SerdeExact`: `Denotes m d v`, an inductive relation between data and values that follows the declarations and does not mention the reader; `Gathered` (what becomes of a list of entries in an ordered map); `Rearranged` | `Value.de m d = some v ↔ Denotes m d v`: one direction by induction on the relation, the other on the size of the data, with an exact lemma for each reader of a part; the same for keys and paths; order of fields and entries and integer widths as corollaries through the relation |
| C87 | nothing new in the model; `Spec/SerdeTypeExact`: `DenotesDescriptor m d x` and one relation per node type, written from the declarations with `Gives`, `IsSeq`, `IsMap`, `IsOption` | `(WireDescriptor.codec m).de d = some x ↔ DenotesDescriptor m d x`: each codec combinator (sequence, map, option, field list, struct) preserves `Reads`, an exact correspondence of a codec with a relation; enums through the lemmas of C86 |
| C88 | nothing new in the model; `Spec/SpeedyExact`: the layout from the declarations of the types (`Spells`, `SpellsPath`, `SpellsDescriptor`: concatenations in declaration order, tags as positions in the lists of variant names, `Collected` for maps), over any layout of the primitives | `F.value.r bs = some (v, rest) ↔ ∃ used, bs = used ++ rest ∧ Spells F used v` and the same for key paths, descriptors and scalars: every reader combinator preserves `RExact`; values by induction on the bound on depth, each tag using up a byte. What is written spells (with C75), unambiguity, failure on input cut short, little endian as the instance |
| C89 | `Model/WireDefault`: `default_value` and `has_default_value` on a graph with all the data of its nodes, a panic told apart from not returning; `Spec/WireDefault`: what a type needs (`Need`), what has a default (`Has`), what is asked for (`Next`, `Asked`), refusing, panicking, going round in circles, and what the default is made of (`MadeOf`, `HasDefaultOf`) | both functions are instances of one machine; induction on the call depth for what it comes to; a chain of questions longer than the number of ids has a repetition, which gives the circle and the bound on the depth. `C89_agrees` ties it to the model on which C38 to C40 and C76 rest. |
| C90 | `Model/Visit` as for C41; the ids of element, key and value types are looked up before the first element, as in the code, which matters in graphs with missing nodes. `Spec/VisitAny`: what a type asks of a value (`AskedOf`), having it at every depth (`Walks`), meeting an array (`MeetsArray`) | `C90_visits`, `C90_panics`, `C90_panics_iff`, `C90_unique`: by induction on the value, the steps of the visit being exactly what is asked for; `C90_own` from C41; `C90_only_named`, `C90_only_positions`: what is not asked for is not looked at; `C90_scalar_any`; `C90_copy`, `C90_copy_leaves`: by induction on the value, from what its copy looks like (C83) |
| C91 | `Model/Visit`, `Model/Path`, `Model/TypePath` as for C41, C27 and C29. `Spec/VisitPath`: the leaves a recording visitor gets (`VisitsAll`), a leaf at a path in terms of `type_at` and `at` (`LeafAt`), a leaf of an entry of a map that paths do not lead to (`InMapEntry`) | `C91_reached_is_visited`: by induction on the path, each step of which leads to a part the visit asks for; `C91_visited_iff`: by induction on the walk, each part asked for having a path of one or two keys; `C91_no_maps`, `C91_own` from it; `C91_written_is_visited` with C28. `Indexable` excludes lists with more than 2^64 elements, which do not fit in memory |
| C92 | As C91. `Spec/VisitEdit`: the write at a path that changes one position of the visit (`EditsOne`), leaves of map keys (`InMapKey`), maps whose keys paths can name (`KeysRead`) | `C92_edit_one`: by induction on the walk; each part asked for has a path of one or two keys, and writing through it changes that part of what is asked for and no other (field names are distinct, map keys sorted); `C92_no_maps` from it |
| C93 | `Model/TypeEq`: the derived `==` and `hash` of `TypeDescriptor`, `TypeGraph`, every node type and `Type`, put together from those of the field types; `Spec/TypeEq`: a descriptor taken apart into the values in it and everything else (`outline`, `values`, `Same`) | every combinator keeps three facts: `==` is equality of outlines and pairwise `==` of values, the outline fixes the number of values, and what is hashed is prefix-free and tells exactly what `==` tells (for values by induction on the value, floats by their canonical bits); navigation and defaults by induction on the call depth. `C93_not_bits`: equal descriptors can be serialised differently |
| C94 | `Model/BuildFull`: `DescribeType::build` with all a node stores, in a sorted map from 64-bit ids to nodes; the hash of a `TypeId`, `type_name` and the attributes are parameters. `Spec/BuildFull`: `Full`, what the node of a type must say | leaving out names, metadata and docs gives the graph of `Model/NodeId` step by step (`describeW_bare`), so C62 applies; invariant on the call depth: the graph stays sorted, and every new node is `Full` for a component type with that id; `Full` determines the node (`C94_unique`), is storable (so C67 and C75 apply) and lists no missing field (so C68 applies) |
| C95 | `Model/BuildFull`, `Model/WireDefault`, `Model/TypePath` on the descriptor with 64-bit ids, against the same on `Model/TypeInfo` with distinct ids. `Spec/Rename`: a node and an answer of `type_at` with other ids | `Lemmas/Rename`: two graphs that differ in their ids only answer alike, by induction on the call depth and on the path; without collisions the two descriptors are such graphs (`describeW_renames`, from `build_sim` and `describeW_bare`); C89 brings in panics, which are excluded because every node a part asks for is there. `Lemmas/RenameVisit`: the same for `try_visit`, by induction on the size of the value |
| C96 | `Model/Reflect`, `Model/TypeInfo`, `Model/BuildFull`. `Spec/Suits`: what a Value must look like according to a descriptor alone, the least relation closed under the reading of one node | one node against one level of the conversion (`takes_reads`, from `Describes` of C35 and the `reads_*` lemmas of C84); from left to right by leastness, from right to left by induction on the size of the Value; renaming ids changes nothing (`suits_rename`), which brings in stored descriptors and two programs. Fails for a tuple struct or tuple variant that skips a field before a reflected one; `C96_gap_misleads` shows that each such tuple struct fails |
| C97 | `Model/Reflect`, `Model/Obj`, `Model/TypeInfo`, `Model/BuildFull`. `Spec/Suits` (`Retains`): what a type keeps of a Value according to a descriptor alone, a least relation like `Suits` | one node against one level of conversion and `to_value` (`retains_step`, from `ConvStep` of C50); maps are rebuilt once under the key's own order and once under the order of Values, which is the same as once under the latter (`bmOfList_bmOfList`); then by induction on the size of the Value; the relation is a function (`Retains.unique`) and does not depend on the ids (`retains_rename`). Fails, like C96, with a skipped field before a reflected one, and for keys with an `Ord` that identifies what their Values tell apart (`C97_own_key_order`) |
| C98 | `Model/Impl`: `ReflectRef` with the methods of its trait objects over an arbitrary type of values; `at` and `reflect_eq` over any implementation, the latter in a number of steps since an implementation may yield fields for ever; the modelled types are one implementation (`Obj.impl`). `Spec/Impl`: answering alike (`Alike`), equality as far as the methods show (`Equal`), meeting something opaque first (`Undecided`) | bisimulation: induction on the steps; the answers by induction on the steps and, the other way, on the derivation, with a common bound for finitely many parts; `Obj.impl` against the earlier model by induction on the size. The doc comment fails: a difference found earlier decides (`C98_opaque_missed`) |
| C99 | `Model/ImplFrom`: `from_reflect` over an arbitrary implementation (`SrcImpl`: `reflect_ref`, `as_any`, `to_value`), in a number of steps. `Spec/ImplFrom`: parts that cannot be told apart (`Alike`), a value that looks like another of another type (`Looks`) | induction on the steps; agreement with `fromReflect` on `Obj` by induction on the sizes of source and type; the struct and `Vec` characterisations by inversion one way and a common bound the other way; results typed by induction on the steps |
| C100 | `Model/ImplPatch`: `patch` of a derived or built-in value with an arbitrary implementation (`SrcImpl`), in a number of steps; the patched value itself is an `Obj`. `Spec/ImplPatch`: the kind of thing a value shows itself as | induction on the steps; agreement with `patch` on `Obj` by induction on the patch; the loops by their invariant (what is before the turn is patched, the rest untouched); the type kept by induction on the steps and the typing (`Spec/ImplSound`: downcasts give typed values, `to_value` a `Value`) |
| C101 | `Model/ImplVisit`: `try_visit` of an arbitrary implementation along any type graph, in a number of steps. `Spec/ImplVisit`: the parts a type says a value has, the leaves these come down to or begin with, what is missing, what a visitor makes of leaves | the loops by their turns; both directions by induction on the derivation of the leaves and on the steps; agreement with `tryVisit` on `Obj` by induction on the size of the value |
| C102 | `Model/ImplMut`: `at_mut` of an arbitrary implementation; a reference is what it points to and what the whole becomes when that is overwritten. `Spec/ImplMut`: what lawful access to one part is, and when two paths go separate ways | induction on the path; the laws for one step come from those for one part; the derived and built-in types are lawful by their cases |
| C103 | `Model/ImplDebug`: `reflect_debug` of an arbitrary implementation: the calls it makes on the formatter, in a number of turns of its iterators. `Spec/ImplDebug`: what is printed, as the parts up to the first gap | the iterators by induction on their turns; the `unreachable!` arms by what the iterator yields; agreement with `reflectDebug` on `Obj` by the lemmas about its iterators |
| C104 | `Model/ImplTyped`: `as_any`, downcasts, `get_at`, `get_at_mut`, `get_field` and `get_field_mut` of an arbitrary implementation. `Spec/ImplTyped`: when `as_any` does what it says, and histories of typed writes | from C102, a typed write being a write through `at_mut`; histories by induction; agreement with `getAt` on `Obj` where the reference is not to a `Value` or `Box` |
| C57 | `parseAttrs`, `Attrs.ann`, `TypeAt.meta` | induction on attribute lists; lookup in a sorted association list |
| C58 | `reflectDebug` against the relation `Complete` | case analysis; iteration stops at the first skipped field |
| C46 | `fromReflect`, `patch` | corollary of C05, C07 |
| C48 | `durFromReflect`, bit-level `fromSecsF32` | arithmetic on the bits |

## Findings: where the code does not have the property

Every item is proved in Lean (the theorem is in the manifest), most of them for
all values of the shape in question, and the positive theorem beside it covers
the rest and has the suffix `_partial`.

* A `#[reflect(skip)]` field before a reflected one in a tuple struct or tuple
  variant: the round trip through `Value` is always `None` (C02), `clone_reflect`
  with `opt_out(Clone)` panics (C06), `fields()` stops early (C26, C49),
  `reflect_eq` ignores later fields and is not transitive (C16; in a struct variant, not symmetric, C15), type
  information is shifted (C29, C37), `default_value` does not convert (C38),
  `try_visit` panics, exactly on values with such a gap (C41), patching twice differs from once (C09), and a patch
  can move a value into the wrong field (C10).
* Metadata expressions run under the write guard of the global descriptor cache: one that panics
  poisons the lock, and every later `type_descriptor()` of any type on any thread panics, also for types
  already cached; one that calls `type_descriptor()` blocks all threads forever (C59).
* `clone_reflect` of a `Vec`, array, map or type with `opt_out(Clone)` goes through
  `Value`, so it resets the skipped fields of everything inside it (C06).
* Patching an enum with a convertible value replaces it wholesale and so resets
  its skipped fields (C10, C13). With `opt_out(Clone)` this happens even when an enum is
  patched with itself (`C10_patch_self_iff` says exactly when).
* Fixed-size arrays: `to_value` makes a `List`, and `<[T; N]>::from_reflect` of an
  array never succeeds, only of a list (C04); an array is not `reflect_eq` to its own
  `to_value` (C17); `Option<[T; N]>` cannot be patched (C11); maps with
  array keys are not `reflect_eq` to themselves (C14).
* A map's key `Ord` that separates keys with equal `Value`s loses entries in the
  round trip (C01).
* `StructValue` counts a name set twice as two fields (C23), and `reflect_eq` is
  then not symmetric; neither is it between maps with one-way convertible keys,
  such as `u8` and `NonZeroU8` (C15).
* 128-bit map keys wrap when used as positions in a path (C30).
* `ExactSizeIterator::len` of the field iterators is always the total (C26).
* Recursive enums and tuple structs whose recursion passes through no struct,
  collection or tuple overflow the stack in `type_descriptor()` (C34);
  `default_value` and `has_default_value` can recurse forever (C40) and disagree
  on `[T; 0]` (C39).
* `SimpleTypeName` of a type whose name starts with `_` is glued to the name of
  its module (C43).
* `NonZero` integers are scalars to `reflect_ref` and opaque to `reflect_mut`;
  nothing downcasts to `Value` or `Box<_>` (C45).
* A `Value` that holds a struct or an enum does not downcast to `StructValue` or `EnumValue` but to a `Box` of it,
  because `as_any` exposes the box inside `Value`; after `as_reflect` it is the other way round (C45). So
  `get_field::<StructValue>` and `get_at::<StructValue>` miss such a field of a `StructValue`, of a derived struct
  or of a tuple, and find it in tuple structs, derived enums, dynamic tuples, lists and maps (C47, C70).
* `get_field` on an enum `Value` finds fields by `&str` but not by `String` (C47).
* `fields_mut` of a dynamic struct is in name order while `fields` is in insertion
  order, and `fields_mut` does not stop at skipped fields as `fields` does (C53).
* An enum that holds a `#[reflect(skip)]` variant makes `to_value` panic, also from
  deep inside another value (C54, C55).
* `meta`, `get_meta` and `docs` of a variant reached through `type_at` are always
  empty, whatever the declaration says (C57).
* Views (`Type`, `StructType`, ...) of one type found in descriptors of different types are not `==`,
  since they compare the whole graph, unless it is a scalar type or the two types contain each other (C61).
* Types are identified by 64-bit hashes, and the graph takes equal hashes for equal types. Whatever the hash
  function, there is a pair type whose descriptor is wrong about a component; without collisions among the
  components the descriptor is right, and with them navigation at least never panics (C62).
* `from_reflect_with` is not applied to a nested value when the source already holds one of that type and
  the enclosing type is `Clone`: a clamped field then keeps an out-of-range value, while the same source as
  a `Value` is clamped (C63). A struct's own `patch` never calls the function. A function that downcasts, as
  in the documentation, on a field of a derived type makes the type impossible to build from any `Value`
  (C63). On a tuple struct field other than the last the attribute does not compile: the generated code
  lacks a comma (M tuple_struct.rs:209-215).
* `reflect_debug` leaves out every field after a skipped one in tuple structs and
  enum variants (C58).
* A `StructValue` that is deserialised may list any names, whatever fields it has: `fields_len` then counts
  fields that are not there, and fields found by name are missing from iteration, from `from_reflect` to
  `StructValue` and from comparisons (C66). Nothing panics, and conversion to other types is sound.
* A `TypeDescriptor` that is deserialised may refer to nodes that are not there, list fields that are not there,
  and contain itself without indirection. `get_type`, `field_types` and the other views then panic with
  "This is a bug. Please open an issue.", and `default_value` and `has_default_value` can recurse without end (C68).
  A field's own name can also differ from the name it is found under.
* The code generated for a struct-like enum variant binds the fields under their own names, next to its own
  variables (M enum_.rs:528-622). A field `name: String`, skipped or not, captures the parameter of `field` and
  `field_mut`: they then look for the field whose name is the *content* of that field. In
  `enum Shape { Named { name: String, sides: u8 } }` the value `Named { name: "square", sides: 4 }` has no field
  that is found by name, is not equal to itself under `reflect_eq`, does not convert to `Shape` with
  `from_reflect`, and patches nothing (C69). Fields called `index`, `value`, `new_value`, `enum_` or
  `variant_matches`, or `name` of another type, make the derive fail to compile (C69).
* `#[reflect(from_reflect_with(..))]` on a field of a tuple struct that is not the last makes the derive generate a
  struct literal with a missing comma (tuple_struct.rs:209-215), which does not compile (C71).
* A skipped field whose type mentions `HashMap` is refused by the derive, though the documentation offers `skip` for
  types that cannot be reflected; so are items, variants and named fields called `HashMap` (C71).
* The documentation of the derive says unit structs are treated as tuple structs; they are structs (C71).
* `from_reflect_with` on a variant is accepted and ignored (C71).
* Patching an `EnumValue` with another variant takes over the fields of the patch, patching it with the variant it is in adds none: a patch repeated later in a history therefore leaves a trace of its first occurrence (C81, `C81_dynamic_remembers`).
* `Reflect::debug` of tuples prints the type name only: the elements of a tuple, and of every tuple in a list or field, never show (C82, `C82_tuples_print_alike`).
* `Value`s in lists and map keys, and keys in a printed `KeyPath`, are printed without their types: `[1u8]` and `[1i64]`, and paths using them as keys, print alike (C82, `C82_values_lose_types`, `C82_paths_lose_types`).
* `Box<T>` does not use the `Debug` of `T` (C82, `C82_box_ignores_own_debug`).
* A value and its `to_value` part ways under edits (C83): an array's copy is a list (`C83_array_push`,
  `C83_array_list`), a `NonZero`'s copy takes a zero (`C83_nonzero`), a derived enum ignores an unknown variant that
  its copy takes (`C83_enum_unknown`), a derived enum is replaced where its copy is patched field by field
  (`C83_enum_merged`), and a map finds an entry by a lossy key where its copy does not (`C83_lossy_key`).
* A tuple struct with a skipped field in front of a shown one reads by declared position what `to_value` numbers
  without skipped fields, so it is often not readable by its own version (`C84_too_few_positions`).
* A program with a smaller tuple struct that skips a field before a shown one reads the right position and writes it
  back to another: `Two(i32, i32)` read as `Gap(#[reflect(skip)] bool, i32)` and patched back becomes `(b, b)` (C85,
  last example but one); and a smaller program's choice of another enum variant is ignored by `patch` whenever the
  variant has a field that program does not know (`C85_variant_dropped`).
* On a descriptor from outside `default_value` also panics if an array is longer than a `Vec` can be, even if
  `has_default_value` returns true, and a few nodes suffice for a default of any size (C89: `C89_too_long`,
  `C89_exponential`). `default_value` can return where `has_default_value` never does (`C89_has_never`).
* `try_visit` never compares the value with the type: a scalar type takes a scalar of any kind, the callback chosen by
  the value (C90: `C90_scalar_any`). The `to_value` of a value can be visited along the value's own type where the value
  itself cannot, because of a skipped position, and cannot where the value can, because of an array (`C90_copy`).
* Building a Value from a descriptor fails for types with a skipped field before a reflected one in a
  tuple struct or tuple variant (C96): the descriptor lists the reflected fields, `from_reflect` counts the
  skipped ones too. A Value with just the described fields is refused, whatever they are
  (`C96_gap_tuple_struct`, `C96_gap_variant`).
* What reading a map keeps is not told by the descriptor if the key type has an `Ord` of its own that
  identifies keys whose Values differ: entries are lost that another program with the same descriptor keeps
  (`C97_own_key_order`).
* `reflect_eq` does not return `None` whenever a value contains something opaque, as documented
  (reflect_eq.rs:6-8): it returns `Some(false)` if the numbers of fields or the variants differ, or a field
  before the opaque one does (`C98_opaque_missed`; exactly when it does return `None`:
  `C98_undecided_iff_partial`).
* A value that shows itself as an array is never read as an array: `[T; N]::from_reflect` asks for a list. A
  derived struct with an array field is therefore not read from a source whose field is a hand-written array
  (`C99_array_view_refused`, `C99_array_field_refused`). A list whose `get` never ends is read for ever, whatever
  length it announces (`C99_endless`).
* `Vec::patch` and `[T; N]::patch` loop over the elements of the patch, beyond their own end: with a list that
  never ends even an empty `Vec` is never done (`C100_endless`). A derived enum patched with a value that only
  looks like it loses its skipped fields, which it takes over from one of its own type (`C100_enum` and the
  examples beside it). `patch` takes a hand-written array for an array although `from_reflect` does not.
* `try_visit` asks neither a list or array for its length nor an array type for its: it goes on while there are
  elements (`C101_endless`), and an array of another length than its type is visited like any other
  (`PartsOf.array`).
* `Duration` conversion panics for negative, NaN, infinite and large `f32`s (C48).

## Not modelled

The encoding done by serde formats, how speedy lays out a single primitive (a parameter of C75, little endian being
an instance), `no_std` differences, `Debug` formatting of leaf
types (a parameter of C82), the parsing of expressions, paths and items done by `syn` (a parameter of C71), memory layout and lifetimes,
hand-written `Reflect` impls outside C98–C104, `from_reflect_with` outside C63. Metadata expressions are taken as already
evaluated, except for the faults of C59.

## Simplifications

See the comment on each definition. The global ones:

* user `Clone` impls return an equal value; user `Ord` impls on map keys are
  total orders (`OrdLaws`);
* node ids of type graphs are the types themselves in all properties but C62, C67, C68, C75, C89, C93, C94,
  C95 and C96: the 64-bit hash of `TypeId` is assumed to have no collisions among the component types of the
  described type, under which C62 shows the two kinds of ids to be equivalent, and C95 that paths and defaults
  answer alike;
* a reference or box to an object is the object (its Rust type is tracked only where a downcast depends on it,
  C45, C47, C70; `from_reflect_shortcut` shows that the derived code does not depend on it); writing through a mutable
  reference is a function from the old to the new object;
* skipped fields are opaque payloads with a default of `0`;
* struct-like variants of derived enums have no field called `name`: for those, and only those, `Obj.field` is
  what the generated code computes (C69).

## Testing the model

`Verif/Conformance` runs the repository's own tests on the model: every assertion of `src/tests/*.rs`, of the inline
test modules and of the documentation examples that the model can express, 288 in all, each an equation between what
the model computes and what the test expects, checked by the kernel. They are no proofs of properties and no theorem in
the manifest depends on them; they are evidence that the model is a model of this code. All of them hold, without a
change to the model. The head of each file says which assertions are left out.

## Testing the theorems

`seeded/LOG.jsonl` records edits of the model that mimic realistic bugs, made in
a scratch copy, and which theorems stopped being provable. Where an edit also
invalidates a helper lemma that merely unfolds the edited definition, the helper
is edited along with it, so that the failure is one of the property.
