{"id": "C01", "title": "to_value / from_reflect round trip", "statement": "For every value x of a reflectable type T without skipped fields, T::from_reflect(&x.to_value()) is Some(x): converting to a dynamic Value and back loses nothing.", "quantifier": "every type built from scalars, NonZero integers, Value, tuples, Vec, arrays, BTreeMap, Box and derived structs / tuple structs / enums (including mutually recursive ones), every value of it, every lawful key ordering that does not separate keys whose Values are equal", "why_tests_cant": "types and values nest without bound; tests only try a few shapes", "anchors": ["crates/mirror-mirror/src/lib.rs: FromReflect", "crates/mirror-mirror/src/foreign_impls/*.rs", "crates/mirror-mirror/src/tuple.rs: impl_tuple!", "crates/mirror-mirror-macros/src/derive_reflect/struct_named.rs: expand_from_reflect, expand_reflect", "crates/mirror-mirror-macros/src/derive_reflect/tuple_struct.rs", "crates/mirror-mirror-macros/src/derive_reflect/enum_.rs"]}
{"id": "C02", "title": "round trip with skipped fields", "statement": "For a derived type with #[reflect(skip)] fields, T::from_reflect(&x.to_value()) gives back x with every skipped field replaced by its Default and every other field intact.", "quantifier": "every derived type with skipped fields at any position, every value", "why_tests_cant": "needs every position of the skip among every number of fields; the failing positions are not those in the tests", "anchors": ["crates/mirror-mirror-macros/src/derive_reflect/struct_named.rs: expand_from_reflect", "crates/mirror-mirror-macros/src/derive_reflect/tuple_struct.rs: expand_from_reflect, expand_reflect(to_value)", "crates/mirror-mirror-macros/src/derive_reflect/enum_.rs: expand_from_reflect, expand_reflect(to_value)"]}
{"id": "C03", "title": "Value is a faithful view of itself", "statement": "Reflecting a Value and calling to_value returns the same Value; Value::from_reflect(x) always succeeds and equals x.to_value(); a Value converts to itself.", "quantifier": "every Value of any nesting, every reflectable x", "why_tests_cant": "Values nest without bound", "anchors": ["crates/mirror-mirror/src/value.rs: impl Reflect for Value, impl FromReflect for Value"]}
{"id": "C04", "title": "converting a value to its own type", "statement": "T::from_reflect(&x) is Some(x) when x already has type T.", "quantifier": "every reflectable type T, every value x of it", "why_tests_cant": "a property of every type expression; arrays nested anywhere matter", "anchors": ["crates/mirror-mirror/src/foreign_impls/array.rs: from_reflect", "crates/mirror-mirror/src/tuple.rs: impl_tuple! from_reflect", "crates/mirror-mirror/src/foreign_impls/vec.rs: from_reflect"]}
{"id": "C05", "title": "from_reflect only builds well-formed values", "statement": "Whenever T::from_reflect(v) is Some(y), y is a proper value of T: every field has its declared type, arrays have exactly N elements, map keys are strictly ordered, NonZero integers are not zero.", "quantifier": "every T, every reflected source value v of any type whatsoever", "why_tests_cant": "sources are arbitrary, unbounded, and need not have anything to do with T", "anchors": ["crates/mirror-mirror/src/lib.rs: FromReflect", "crates/mirror-mirror/src/foreign_impls/*.rs", "crates/mirror-mirror-macros/src/derive_reflect/*.rs"]}
{"id": "C06", "title": "cloning through reflection", "statement": "x.clone_reflect() never panics and yields a value equal to x, of the same type.", "quantifier": "every reflectable type (including opt_out(Clone) types) and value", "why_tests_cant": "clone goes through to_value/from_reflect().unwrap() for containers, so safety depends on the round trip of every element type", "anchors": ["crates/mirror-mirror/src/foreign_impls/vec.rs: clone_reflect", "crates/mirror-mirror/src/foreign_impls/array.rs: clone_reflect", "crates/mirror-mirror/src/foreign_impls/btree_map.rs: clone_reflect", "crates/mirror-mirror-macros/src/derive_reflect/attrs.rs: fn_clone_reflect_tokens"]}
{"id": "C07", "title": "patch keeps the type", "statement": "After x.patch(&v), x is still a proper value of its type, whatever v is.", "quantifier": "every x of every type T, every v of any type", "why_tests_cant": "v is an arbitrary value unrelated to T", "anchors": ["crates/mirror-mirror/src/lib.rs: Reflect::patch", "crates/mirror-mirror-macros/src/derive_reflect/*.rs: fn_patch", "crates/mirror-mirror/src/foreign_impls/*.rs: patch", "crates/mirror-mirror/src/struct_.rs: patch", "crates/mirror-mirror/src/enum_.rs: patch"]}
{"id": "C08", "title": "patch with a value of another kind does nothing", "statement": "If v is of a different reflection kind than x (struct, tuple struct, tuple, enum, array, list, map, scalar), x.patch(&v) leaves x unchanged.", "quantifier": "every x and v of different kinds", "why_tests_cant": "all pairs of kinds and all contents", "anchors": ["crates/mirror-mirror/src/lib.rs: Reflect::patch", "crates/mirror-mirror-macros/src/derive_reflect/*.rs: fn_patch"]}
{"id": "C09", "title": "patch is idempotent", "statement": "Patching twice with the same v has the effect of patching once.", "quantifier": "every x, every v", "why_tests_cant": "needs every nesting of structs, enums (which may be replaced wholesale), lists and maps", "anchors": ["crates/mirror-mirror/src/lib.rs: Reflect::patch", "crates/mirror-mirror-macros/src/derive_reflect/enum_.rs: fn_patch", "crates/mirror-mirror/src/enum_.rs: patch"]}
{"id": "C10", "title": "patching a value with itself changes nothing", "statement": "x.patch(&x) and x.patch(&x.to_value()) leave x unchanged.", "quantifier": "every x of every type", "why_tests_cant": "unbounded nesting; enum values are rebuilt from the patch", "anchors": ["crates/mirror-mirror/src/lib.rs: Reflect::patch", "crates/mirror-mirror-macros/src/derive_reflect/enum_.rs: fn_patch"]}
{"id": "C11", "title": "patching with a full value makes them equal", "statement": "For x, y of the same type, after x.patch(&y) (or x.patch(&y.to_value())) x equals y.", "quantifier": "every fixed-shape type, every pair of values", "why_tests_cant": "pairs of arbitrary values of arbitrary types", "anchors": ["crates/mirror-mirror/src/lib.rs: Reflect::patch", "crates/mirror-mirror-macros/src/derive_reflect/*.rs: fn_patch", "crates/mirror-mirror/src/foreign_impls/vec.rs: patch", "crates/mirror-mirror/src/foreign_impls/array.rs: patch"]}
{"id": "C12", "title": "patch never resizes lists, arrays and maps", "statement": "Patching a list touches exactly the positions both sides have and never changes its length; patching a map changes only values of keys it already has and never the key set.", "quantifier": "every list/array/map and every patch", "why_tests_cant": "lengths and key sets are unbounded", "anchors": ["crates/mirror-mirror/src/foreign_impls/vec.rs: patch", "crates/mirror-mirror/src/foreign_impls/array.rs: patch", "crates/mirror-mirror/src/foreign_impls/btree_map.rs: patch"]}
{"id": "C13", "title": "patch leaves unmentioned fields alone", "statement": "Patching a struct changes only fields whose names the patch carries, each exactly by patching it with the same-named value; positional for tuples; skipped fields are never touched.", "quantifier": "every struct / tuple struct / tuple / enum, every patch", "why_tests_cant": "every subset and order of fields", "anchors": ["crates/mirror-mirror-macros/src/derive_reflect/struct_named.rs: fn_patch", "crates/mirror-mirror-macros/src/derive_reflect/tuple_struct.rs: fn_patch", "crates/mirror-mirror-macros/src/derive_reflect/enum_.rs: fn_patch", "crates/mirror-mirror/src/struct_.rs: patch", "crates/mirror-mirror/src/tuple.rs: patch"]}
{"id": "C14", "title": "reflect_eq is reflexive", "statement": "reflect_eq(x, x) is Some(true) for every x that contains no NaN and no opaque part.", "quantifier": "every x of every type", "why_tests_cant": "unbounded nesting; maps look keys up through from_reflect", "anchors": ["crates/mirror-mirror/src/reflect_eq.rs: reflect_eq"]}
{"id": "C15", "title": "reflect_eq is symmetric", "statement": "reflect_eq(a, b) == reflect_eq(b, a).", "quantifier": "every pair of reflected values, typed or dynamic", "why_tests_cant": "pairs of arbitrary values; struct comparison iterates only one side", "anchors": ["crates/mirror-mirror/src/reflect_eq.rs: reflect_eq, reflect_eq_struct, reflect_eq_map", "crates/mirror-mirror/src/struct_.rs: StructValue::set_field"]}
{"id": "C16", "title": "reflect_eq is transitive", "statement": "If reflect_eq(a,b) and reflect_eq(b,c) are Some(true) then so is reflect_eq(a,c).", "quantifier": "every triple of reflected values", "why_tests_cant": "triples of arbitrary values", "anchors": ["crates/mirror-mirror/src/reflect_eq.rs: reflect_eq"]}
{"id": "C17", "title": "a value is reflect_eq to its to_value", "statement": "reflect_eq(x, &x.to_value()) is Some(true) for x without NaN / opaque parts.", "quantifier": "every x of every type", "why_tests_cant": "arrays anywhere inside change the kind in to_value", "anchors": ["crates/mirror-mirror/src/reflect_eq.rs: reflect_eq", "crates/mirror-mirror/src/foreign_impls/array.rs: to_value"]}
{"id": "C18", "title": "reflect_eq decides equality of same-typed values", "statement": "For x, y of the same type without skipped fields, reflect_eq(x,y)=Some(true) holds exactly when they agree everywhere, scalars compared with ==.", "quantifier": "every type, every pair of values", "why_tests_cant": "pairs of arbitrary values", "anchors": ["crates/mirror-mirror/src/reflect_eq.rs: reflect_eq"]}
{"id": "C19", "title": "reflect_eq ignores struct field order", "statement": "Two struct values with the same names and values but different insertion orders compare Some(true) under reflect_eq.", "quantifier": "every struct value and every permutation of its fields", "why_tests_cant": "all permutations of unboundedly many fields", "anchors": ["crates/mirror-mirror/src/reflect_eq.rs: reflect_eq_struct", "crates/mirror-mirror/src/struct_.rs: StructValue"]}
{"id": "C20", "title": "Value has a total order and a lawful equality", "statement": "cmp on Value is reflexive, antisymmetric (up to ==), transitive and total, and a == b exactly when cmp is Equal, including NaN and signed zeros; so Value is a sound map key.", "quantifier": "all triples of Values", "why_tests_cant": "floats, nested containers and struct field orders cannot be enumerated", "anchors": ["crates/mirror-mirror/src/value.rs: impl Ord/PartialEq for Value, OrdEqHashValue"]}
{"id": "C21", "title": "equal Values hash equally", "statement": "a == b implies the hash of a and b feed the hasher the same data.", "quantifier": "all pairs of Values", "why_tests_cant": "floats have many equal bit patterns; containers nest", "anchors": ["crates/mirror-mirror/src/value.rs: impl Hash for Value, OrdEqHashValue"]}
{"id": "C22", "title": "reflected maps behave as maps", "statement": "Through the Map trait, get after insert returns the inserted value for an equal key, other keys are unaffected, remove deletes exactly one key, len counts distinct keys, iteration is in strictly increasing key order, inserting something not convertible changes nothing.", "quantifier": "every history of insert/remove/get with arbitrary reflected keys and values", "why_tests_cant": "histories of any length", "anchors": ["crates/mirror-mirror/src/foreign_impls/btree_map.rs: impl Map for BTreeMap", "crates/mirror-mirror/src/map.rs: Map"]}
{"id": "C23", "title": "StructValue behaves as a record", "statement": "After any sequence of set_field/with_field, field(name) is the last value set for name, names are listed in insertion order, and fields_len is the number of distinct fields.", "quantifier": "every sequence of set_field calls", "why_tests_cant": "sequences of any length with repeated names", "anchors": ["crates/mirror-mirror/src/struct_.rs: StructValue::set_field, fields_len, field_at, name_at"]}
{"id": "C24", "title": "dynamic enum and tuple builders", "statement": "EnumValue/TupleValue/TupleStructValue builders store exactly the given fields in order under the given variant and kind; EnumValue setters panic exactly when the kind does not match.", "quantifier": "every builder call sequence", "why_tests_cant": "sequences of any length", "anchors": ["crates/mirror-mirror/src/enum_.rs: EnumValue builders", "crates/mirror-mirror/src/tuple.rs: TupleValue", "crates/mirror-mirror/src/tuple_struct.rs: TupleStructValue"]}
{"id": "C25", "title": "reflected lists behave as vectors", "statement": "push/pop/try_remove/get/len through the List trait behave as on a plain vector; pushing a value that does not convert leaves the list unchanged.", "quantifier": "every history of list operations", "why_tests_cant": "histories of any length", "anchors": ["crates/mirror-mirror/src/foreign_impls/vec.rs: impl List for Vec", "crates/mirror-mirror/src/list.rs: List"]}
{"id": "C26", "title": "field iterators enumerate every field once, in order", "statement": "fields()/iter() yields field_at(0), field_at(1), ... up to fields_len exactly once each and then None forever; its reported len is the number of remaining items.", "quantifier": "every struct/tuple/enum/array value and any number of next calls", "why_tests_cant": "any number of fields and calls", "anchors": ["crates/mirror-mirror/src/struct_.rs: Iter", "crates/mirror-mirror/src/tuple.rs: Iter", "crates/mirror-mirror/src/tuple_struct.rs: Iter", "crates/mirror-mirror/src/array.rs: Iter", "crates/mirror-mirror/src/enum_.rs: VariantFieldIter"]}
{"id": "C27", "title": "key paths compose", "statement": "x.at(p ++ q) equals x.at(p) followed by at(q); the empty path is x itself; a path is reachable only if all its prefixes are.", "quantifier": "every value, all paths p, q", "why_tests_cant": "paths of any length through any value", "anchors": ["crates/mirror-mirror/src/key_path.rs: GetPath::at, KeyPath"]}
{"id": "C28", "title": "at_mut agrees with at and writes exactly there", "statement": "at_mut(p) succeeds exactly when at(p) does and on the same part; after replacing that part by y, at(p) is y and every path that diverges from p is unchanged.", "quantifier": "every value, all pairs of paths", "why_tests_cant": "pairs of arbitrary paths through arbitrary values", "anchors": ["crates/mirror-mirror/src/key_path.rs: GetPath::at, at_mut"]}
{"id": "C29", "title": "value paths and type paths agree", "statement": "If x has type T and T.type_at(p) is a type U, then whenever x.at(p) exists it is a value of U; and a value path that spells out variants has a type path.", "quantifier": "every type, value and path", "why_tests_cant": "all paths through recursive types", "anchors": ["crates/mirror-mirror/src/key_path.rs: GetPath::at, GetTypePath::type_at", "crates/mirror-mirror/src/type_info/mod.rs: TypeAtPath"]}
{"id": "C30", "title": "integer index keys mean their number", "statement": "x.at([i]) on a list or array is the i-th element for every integer key type, and None when i is negative or out of range.", "quantifier": "every list, every integer value of every integer type", "why_tests_cant": "2^128 possible keys", "anchors": ["crates/mirror-mirror/src/key_path.rs: value_to_usize"]}
{"id": "C31", "title": "breadcrumbs are exactly the non-empty prefixes", "statement": "KeyPath::breadcrumbs yields every non-empty prefix of the path once, shortest first, ending with the path itself.", "quantifier": "every key path", "why_tests_cant": "paths of any length", "anchors": ["crates/mirror-mirror/src/key_path.rs: Breadcrumbs"]}
{"id": "C32", "title": "KeyPath construction and printing", "statement": "Building a path with field/get/variant/push then popping gives the keys back in order; len counts them; Display prints the keys left to right and paths of field, index-free and variant keys print to distinct strings.", "quantifier": "every sequence of path operations", "why_tests_cant": "sequences of any length", "anchors": ["crates/mirror-mirror/src/key_path.rs: KeyPath, Key, Display"]}
{"id": "C33", "title": "type descriptors are closed", "statement": "In the descriptor of any type, every type reachable through fields, variants, elements, keys and values can be looked up; navigation never panics.", "quantifier": "every (possibly recursive) type universe, every navigation", "why_tests_cant": "type graphs of any size and any cycles", "anchors": ["crates/mirror-mirror/src/type_info/graph.rs: TypeGraph::get_or_build_node_with, get", "crates/mirror-mirror/src/type_info/mod.rs: Type::new", "crates/mirror-mirror-macros/src/derive_reflect/*.rs: expand_describe_type"]}
{"id": "C34", "title": "describing a type terminates", "statement": "T::type_descriptor() terminates for every reflectable type with finitely many component types, recursive ones included.", "quantifier": "every finite type universe", "why_tests_cant": "every recursion pattern between types", "anchors": ["crates/mirror-mirror-macros/src/derive_reflect/enum_.rs: expand_describe_type", "crates/mirror-mirror-macros/src/derive_reflect/tuple_struct.rs: expand_describe_type", "crates/mirror-mirror-macros/src/derive_reflect/struct_named.rs: expand_describe_type", "crates/mirror-mirror/src/type_info/graph.rs: get_or_build_node_with"]}
{"id": "C35", "title": "descriptors describe the declaration", "statement": "The node a descriptor holds for a type is exactly its declaration (names, order, variants, lengths, component types), no matter from which root or in which order the graph was built.", "quantifier": "every type universe, root and build order", "why_tests_cant": "all build orders", "anchors": ["crates/mirror-mirror/src/type_info/graph.rs", "crates/mirror-mirror-macros/src/derive_reflect/*.rs: expand_describe_type"]}
{"id": "C36", "title": "the descriptor cache is safe under concurrency", "statement": "Concurrent calls to T::type_descriptor() never deadlock, all return the same descriptor for the same type, and each type is built at most once.", "quantifier": "every number of threads, every interleaving", "why_tests_cant": "schedules", "anchors": ["crates/mirror-mirror/src/type_info/mod.rs: DescribeType::type_descriptor"]}
{"id": "C37", "title": "type info matches the values", "statement": "For a value of a derived type, the names, number and order of its fields, and its variant and kind, are those its type descriptor lists.", "quantifier": "every derived type and value", "why_tests_cant": "all field layouts with skips", "anchors": ["crates/mirror-mirror/src/type_info/mod.rs: StructType, TupleStructType, EnumType", "crates/mirror-mirror-macros/src/derive_reflect/*.rs"]}
{"id": "C38", "title": "default_value is a value of the type", "statement": "If T.default_value() is Some(v) then T::from_reflect(&v) is Some.", "quantifier": "every type", "why_tests_cant": "recursive types of any shape", "anchors": ["crates/mirror-mirror/src/type_info/mod.rs: default_value"]}
{"id": "C39", "title": "has_default_value tells whether default_value succeeds", "statement": "has_default_value() is true exactly when default_value() is Some.", "quantifier": "every type", "why_tests_cant": "recursive types of any shape, array lengths", "anchors": ["crates/mirror-mirror/src/type_info/mod.rs: default_value, has_default_value"]}
{"id": "C40", "title": "computing a default terminates", "statement": "default_value() and has_default_value() terminate for every type with a descriptor.", "quantifier": "every type universe", "why_tests_cant": "recursion through types is unbounded", "anchors": ["crates/mirror-mirror/src/type_info/mod.rs: EnumType::default_value, StructType::default_value"]}
{"id": "C41", "title": "try_visit visits every leaf exactly once and never panics", "statement": "Visiting a value with its own type never panics and calls the visitor on each scalar and opaque leaf exactly once in declaration order.", "quantifier": "every type and value", "why_tests_cant": "all nestings of types and values", "anchors": ["crates/mirror-mirror/src/try_visit.rs: try_visit"]}
{"id": "C42", "title": "try_visit stops at the first error", "statement": "If a callback fails, no later leaf is visited and that error is returned; otherwise all are visited.", "quantifier": "every value, every visitor behaviour", "why_tests_cant": "arbitrary visitor state machines", "anchors": ["crates/mirror-mirror/src/try_visit.rs: try_visit"]}
{"id": "C43", "title": "simplified type names", "statement": "SimpleTypeName prints each path as its last segment with its arguments simplified, fails exactly on unsupported syntax, and simplifying an already simple name changes nothing.", "quantifier": "every type syntax tree", "why_tests_cant": "type names nest without bound", "anchors": ["crates/mirror-mirror/src/type_info/simple_type_name.rs: TypeWriter"]}
{"id": "C44", "title": "pretty-printed roots list every member in order", "statement": "pretty_print_root prints each field / variant exactly once in declaration order.", "quantifier": "every type", "why_tests_cant": "any number of fields and variants", "anchors": ["crates/mirror-mirror/src/type_info/pretty_print.rs"]}
{"id": "C45", "title": "kinds and downcasts are exclusive", "statement": "For every value exactly one as_X accessor is Some, reflect_ref/reflect_mut/reflect_owned agree on it, and downcast_ref::<T>() is Some exactly when the value has concrete type T.", "quantifier": "every value", "why_tests_cant": "all types", "anchors": ["crates/mirror-mirror/src/lib.rs: ReflectRef, ReflectMut, ReflectOwned, downcast_ref", "crates/mirror-mirror/src/value.rs: Reflect for Value, as_any, as_reflect"]}
{"id": "C46", "title": "NonZero integers stay non-zero", "statement": "No from_reflect or patch, through any nesting, produces a zero NonZero integer; patching with 0 leaves the old value.", "quantifier": "every value containing NonZero integers, every patch", "why_tests_cant": "all nestings and patches", "anchors": ["crates/mirror-mirror/src/foreign_impls/via_scalar.rs"]}
{"id": "C47", "title": "typed field access is precise", "statement": "get_field::<T>(key) is Some exactly when that field exists and has concrete type T, and is then that field; &str and String keys agree.", "quantifier": "every value, key and T", "why_tests_cant": "all values and keys", "anchors": ["crates/mirror-mirror/src/get_field.rs"]}
{"id": "C48", "title": "Duration conversion never panics", "statement": "Patching or building a Duration from a reflected f32 never panics, and gives the duration nearest to that number of seconds; from another Duration it gives that duration, and anything else is None (no change when patching).", "quantifier": "every f32 bit pattern", "why_tests_cant": "2^32 inputs, most exceptional", "anchors": ["crates/mirror-mirror/src/foreign_impls/via_scalar.rs: Duration"]}
{"id": "C49", "title": "skipped fields are invisible", "statement": "A #[reflect(skip)] field never appears in field/field_at/name_at/fields/fields_len/to_value/type info, and all other fields do.", "quantifier": "every derived type", "why_tests_cant": "every skip position", "anchors": ["crates/mirror-mirror-macros/src/derive_reflect/struct_named.rs: expand_struct", "crates/mirror-mirror-macros/src/derive_reflect/tuple_struct.rs: expand_tuple_struct", "crates/mirror-mirror-macros/src/derive_reflect/enum_.rs: expand_enum"]}
{"id": "C50", "title": "from_reflect converts exactly the values of the right shape", "statement": "T::from_reflect(v) is Some exactly when v has the kind T is made from and shows every declared, reflected field with a convertible value, and then the result holds exactly those converted values (skipped fields take Default). Field order, extra fields and v's own Rust type are irrelevant.", "quantifier": "every derived or standard type T and every reflected value v, at any nesting", "why_tests_cant": "sources range over all reflected values, of any type, with any subset and order of fields", "anchors": ["crates/mirror-mirror-macros/src/derive_reflect/struct_named.rs: expand_from_reflect", "crates/mirror-mirror-macros/src/derive_reflect/tuple_struct.rs: expand_from_reflect", "crates/mirror-mirror-macros/src/derive_reflect/enum_.rs: expand_from_reflect", "crates/mirror-mirror/src/foreign_impls: FromReflect impls"]}
{"id": "C51", "title": "patch has exactly the documented effect", "statement": "x.patch(v) updates every part of x that v has a fitting counterpart for, recursively, and leaves every other part alone: structs by name, positions by index, maps by key, enums by taking over a value of their type, else a convertible one, else the fields of the same variant. Nothing else changes, and the outcome is unique.", "quantifier": "every value x and every value v, of any two types, at any nesting", "why_tests_cant": "pairs of arbitrary values of arbitrary types", "anchors": ["crates/mirror-mirror/src/lib.rs: Reflect::patch", "crates/mirror-mirror-macros/src/derive_reflect/struct_named.rs: fn_patch", "crates/mirror-mirror-macros/src/derive_reflect/enum_.rs: expand_reflect", "crates/mirror-mirror/src/foreign_impls: patch"]}
{"id": "C52", "title": "Mutable access reaches exactly the fields shared access shows", "statement": "field_mut, field_at_mut, get_mut, get_field_mut, fields_mut and iter_mut give references to exactly the contents field, field_at, get, get_field, fields and iter show. Assigning values of the same type through them makes exactly those fields show the new values; every other field, skipped data, names, variant, map keys, lengths and the type of the whole stay.", "quantifier": "every value of every type, every name, index and key, and every sequence of assignments through a mutable iterator, complete or left early", "why_tests_cant": "all values, all fields, and all sequences of new contents", "anchors": ["crates/mirror-mirror/src/struct_.rs: Struct::fields_mut, StructValue", "crates/mirror-mirror/src/get_field.rs: GetField::get_field_mut", "crates/mirror-mirror/src/enum_.rs: Enum::fields_mut, EnumValue", "crates/mirror-mirror-macros/src/derive_reflect/struct_named.rs: fields_mut", "crates/mirror-mirror-macros/src/derive_reflect/enum_.rs: fields_mut", "crates/mirror-mirror/src/foreign_impls/btree_map.rs: iter_mut"]}
{"id": "C53", "title": "Mutable iteration visits fields in the order of shared iteration", "statement": "fields_mut yields the fields that fields yields, in the same order.", "quantifier": "every value of every type", "why_tests_cant": "all declarations with skipped fields at any place, and dynamic values with fields set in any order", "anchors": ["crates/mirror-mirror/src/struct_.rs: StructValue::fields_mut, FieldsIter", "crates/mirror-mirror-macros/src/derive_reflect/tuple_struct.rs: fields_mut", "crates/mirror-mirror-macros/src/derive_reflect/enum_.rs: fields_mut"]}
{"id": "C54", "title": "Skipped variants are opaque", "statement": "An enum that holds a variant with #[reflect(skip)] reports the variant's name and kind, and no fields by name, index, iteration or mutable access. Type descriptors do not list the variant, from_reflect of the enum does not accept the value, EnumValue::from_reflect gives the bare variant, reflect_eq compares only the variant, patch replaces the value as a whole or leaves it. to_value, try_visit and clone_reflect under opt_out(Clone) panic.", "quantifier": "every enum declaration with any skipped variants of any kind, every value holding one, every other value it is patched or compared with", "why_tests_cant": "all declarations, all contents and all values on the other side", "anchors": ["crates/mirror-mirror-macros/src/derive_reflect/enum_.rs: expand_reflect, expand_enum, filter_out_skipped", "crates/mirror-mirror/src/enum_.rs: EnumValue::from_reflect", "crates/mirror-mirror/src/try_visit.rs: try_visit"]}
{"id": "C55", "title": "Reflection panics only for values holding a skipped variant", "statement": "to_value, and conversion to Value, panic exactly for values that hold a #[reflect(skip)] variant somewhere inside. from_reflect, patch, reflect_eq, and get, insert, remove and push of containers panic only for such values; from_reflect only if the target type is made of some dynamic type. On all other values none of them panics.", "quantifier": "every value of every type, holding skipped variants or not at any depth, every target type and every other operand", "why_tests_cant": "all values and all types, at any nesting", "anchors": ["crates/mirror-mirror-macros/src/derive_reflect/enum_.rs: to_value", "crates/mirror-mirror/src/lib.rs: Reflect::to_value, FromReflect", "crates/mirror-mirror/src/enum_.rs: EnumValue", "crates/mirror-mirror/src/reflect_eq.rs: reflect_eq", "crates/mirror-mirror/src/foreign_impls: vec.rs, btree_map.rs"]}
{"id": "C56", "title": "The descriptor of a part is as good as the type's own", "statement": "Turning any type reached inside a type descriptor into a descriptor of its own gives the same answers to every query (paths, default values, pretty printing, field and variant listings) as calling type_descriptor of that type. The two compare equal exactly when the type is a scalar or contains the root type.", "quantifier": "every type, every type reachable inside its descriptor, every path and every query", "why_tests_cant": "all type graphs, including recursive ones, and every node in them", "anchors": ["crates/mirror-mirror/src/type_info/mod.rs: Type::into_type_descriptor, TypeDescriptor, DescribeType", "crates/mirror-mirror/src/type_info/graph.rs: TypeGraph"]}
{"id": "C57", "title": "Metadata and docs arrive where they were written", "statement": "#[reflect(meta(k = e))] and doc comments on a type, field or variant are accepted exactly if no key is repeated, and meta, get_meta and docs of that type, field or variant return exactly the values written there, also when it is reached by type_at, and nothing for keys not written.", "quantifier": "every declaration with any attributes on the type, its fields (skipped or not) and variants, every key, every target type of get_meta, every path", "why_tests_cant": "all declarations, all attribute lists and all placements of skipped fields", "anchors": ["crates/mirror-mirror-macros/src/derive_reflect/attrs.rs: ItemAttrs, InnerAttrs, AttrsDatabase", "crates/mirror-mirror/src/type_info/mod.rs: GetMeta, TypeAtPath", "crates/mirror-mirror/src/type_info/graph.rs: StructNode::new"]}
{"id": "C58", "title": "Debug output is complete and never panics", "statement": "reflect_debug, used for Debug of dyn values and of types with opt_out(Debug), never panics and shows the type or variant name, every field that is not skipped in order, every element and every entry.", "quantifier": "every value of every type", "why_tests_cant": "all declarations, with skipped fields at any place, and all values", "anchors": ["crates/mirror-mirror/src/lib.rs: reflect_debug", "crates/mirror-mirror/src/enum_.rs: VariantFieldIter"]}
{"id": "C59", "title": "A fault in a metadata expression stays in its call", "statement": "If a #[reflect(meta(k = e))] expression panics, or itself calls type_descriptor(), while a type is being described, then only that call is affected: type_descriptor() of other types, on any thread, still returns their descriptors.", "quantifier": "every number of threads, every sequence of calls for every types, every schedule, every set of types whose metadata expressions panic or nest", "why_tests_cant": "all interleavings and all choices of faulty types; a poisoned or deadlocked global lock also takes the test process with it", "anchors": ["crates/mirror-mirror/src/type_info/mod.rs: DescribeType::type_descriptor", "crates/mirror-mirror-macros/src/derive_reflect/attrs.rs: tokenize_meta", "crates/mirror-mirror-macros/src/derive_reflect/struct_named.rs: expand_describe_type"]}
{"id": "C60", "title": "Type views show the declaration", "statement": "Starting at T::type_descriptor().get_type() and following any accessors (field_types, field_type, field_type_at, variants, variant, element_type, key_type, value_type, get_type, enum_type), every view shows the declaration of its type: exactly one as_* is Some and it is the declared kind, type_name is the type's name, fields and variants come in declaration order with their names and types, access by position and by name agrees with iteration, fields_len and variants_len are the numbers iterated, a variant's enum_type is the enum it came from, and no accessor panics. type_at from a view is type_at on the type's own descriptor.", "quantifier": "every describable type, recursive or not, and every sequence of accessor calls", "why_tests_cant": "all declarations and unboundedly long walks through cyclic type graphs", "anchors": ["crates/mirror-mirror/src/type_info/mod.rs: Type, StructType, TupleStructType, TupleType, EnumType, Variant, VariantField, ListType, ArrayType, MapType, OpaqueType", "crates/mirror-mirror/src/type_info/graph.rs: StructNode::new, EnumNode::new"]}
{"id": "C61", "title": "Equality of type information is equality of types", "statement": "Two type descriptors, or two type views, are == exactly if they describe the same type (a Box and its content count as the same).", "quantifier": "every pair of describable types, and every view found in their descriptors", "why_tests_cant": "all pairs of types and all places where a type can be found", "anchors": ["crates/mirror-mirror/src/type_info/mod.rs: TypeDescriptor, Type, StructType, EnumType", "crates/mirror-mirror/src/type_info/graph.rs: TypeGraph"]}
{"id": "C62", "title": "Type ids identify types", "statement": "Type graphs refer to types by 64-bit numbers computed from their TypeId. For every type, looking up the number of a component type in the descriptor gives the declaration of exactly that type, and navigation never panics.", "quantifier": "every describable type, and every way the hash may assign numbers to types", "why_tests_cant": "all types and all hash assignments; collisions are too rare to be met in a test", "anchors": ["crates/mirror-mirror/src/type_info/graph.rs: NodeId::new, TypeGraph::get_or_build_node_with", "crates/mirror-mirror/src/lib.rs: STATIC_RANDOM_STATE"]}
{"id": "C63", "title": "from_reflect_with decides what a field becomes", "statement": "When a field of a derived type carries from_reflect_with(f), T::from_reflect(&o) gives that field exactly what f makes of o's field, fails as a whole if f returns None or the field is missing, and treats all other fields as without the attribute; the result is a proper T. Hence an invariant that f establishes holds of that field at every depth of every result of from_reflect.", "quantifier": "every set of declared types with functions on any of their fields, every function, every source value and target type", "why_tests_cant": "user functions are arbitrary, and the claim is about all nestings of types with and without functions and all sources, dynamic or typed", "anchors": ["crates/mirror-mirror-macros/src/derive_reflect/struct_named.rs: expand_from_reflect", "crates/mirror-mirror-macros/src/derive_reflect/tuple_struct.rs: expand_from_reflect", "crates/mirror-mirror-macros/src/derive_reflect/enum_.rs: expand_from_reflect"]}
{"id": "C64", "title": "Option, Result and Range keep their meaning under reflection", "statement": "Option<T>::from_reflect accepts exactly a None, and a Some whose content T accepts; Result<T, E> exactly an Ok whose content T accepts and an Err whose content E accepts; Range<Idx> exactly a struct showing start and end that Idx accepts. reflect_eq of two options or results is that of their contents if the variants agree and false otherwise, across different parameter types. Patching an Option with None makes it None, with a convertible Some makes it that Some, whatever it held. The default of Option<T> is None for every T, that of Result<T, E> is Ok of T's default. Infallible is never built. All of them, nested anyhow with built-in types, come back unchanged from to_value.", "quantifier": "every parameter type, every value of it, and every reflected value converted, patched with or compared", "why_tests_cant": "the declarations are generic: a test fixes a parameter type and a few contents, while the claim is for all of them, nested to any depth, and all foreign sources", "anchors": ["crates/mirror-mirror/src/foreign_impls/mod.rs: Option, Result, Range, RangeFrom, RangeFull, RangeTo, RangeToInclusive, Infallible", "crates/mirror-mirror/src/foreign_impls/glam.rs", "crates/mirror-mirror/src/foreign_impls/macaw.rs"]}
{"id": "C65", "title": "Values and key paths survive serialisation", "statement": "With the serde feature, deserialising what was serialised from a Value gives an equal Value, and likewise for KeyPath, in formats that identify enum variants by name and in those that do so by position. Different Values are serialised differently. A reflected value turned into a Value, serialised, deserialised and converted back to its type (with no skipped fields) is the original.", "quantifier": "every Value the Rust type can hold, nested to any depth, every key path, every type and value of it, both ways to identify variants", "why_tests_cant": "Value is recursive: a test serialises a few shapes in one format, the claim is for all shapes, including maps whose keys are themselves structured values", "anchors": ["crates/mirror-mirror/src/value.rs: Value", "crates/mirror-mirror/src/struct_.rs: StructValue", "crates/mirror-mirror/src/enum_.rs: EnumValue", "crates/mirror-mirror/src/tuple.rs: TupleValue", "crates/mirror-mirror/src/tuple_struct.rs: TupleStructValue", "crates/mirror-mirror/src/key_path.rs: KeyPath, Key"]}
{"id": "C66", "title": "Values read from untrusted data are safe to use", "statement": "Whatever the data deserialised, if a Value results then its maps are in key order and its integers in range; to_value, from_reflect to any type, patch with it and reflect_eq on it do not panic; converting it to a type without dynamic parts gives a proper value of that type or None; and a record that is read counts, iterates over and looks up the same fields.", "quantifier": "every piece of data the format can present, both ways to identify variants, every target type", "why_tests_cant": "an attacker chooses the data; the claim is about all data and all types, not about those some version of the program has written", "anchors": ["crates/mirror-mirror/src/value.rs: Value", "crates/mirror-mirror/src/struct_.rs: StructValue", "crates/mirror-mirror/src/enum_.rs: EnumValue", "crates/mirror-mirror/src/lib.rs: FromReflect"]}
{"id": "C67", "title": "Serialised type descriptors come back unchanged", "statement": "Writing a type descriptor with any self-describing serde format and reading it back gives an equal descriptor: the root, every node with its type name, fields, field names, metadata, docs, array length and default value, and every placeholder. Different descriptors are written differently. Reading accepts exactly the descriptors the Rust type can hold, and leaves out nothing of the data: if one node cannot be read, the descriptor cannot.", "quantifier": "all type descriptors the type can hold (any number of nodes, any cycles between them, any metadata values) and all data; formats that name variants by name and by position", "why_tests_cant": "descriptors are arbitrary graphs with arbitrary values as metadata; tests serialise a few", "anchors": ["crates/mirror-mirror/src/type_info/graph.rs: NodeId, TypeGraph, TypeNode, StructNode, TupleStructNode, EnumNode, VariantNode, TupleNode, NamedFieldNode, UnnamedFieldNode, ArrayNode, ListNode, MapNode, ScalarNode, OpaqueNode", "crates/mirror-mirror/src/type_info/mod.rs: TypeDescriptor"]}
{"id": "C68", "title": "Navigating a type descriptor, built or received, never panics", "statement": "Starting from get_type of a descriptor and going from view to view through fields, variants, elements, keys and values never panics. This holds for every descriptor the library builds. It fails for descriptors read from untrusted data: exactly if some id that can be reached has no node, or a struct or variant that can be reached lists the name of a field it does not have.", "quantifier": "all type descriptors of all types; all descriptors that can be deserialised from any data; all walks through their views, of any length", "why_tests_cant": "walks are unbounded, the graphs can be cyclic, and untrusted data can describe any graph", "anchors": ["crates/mirror-mirror/src/type_info/graph.rs: TypeGraph::get", "crates/mirror-mirror/src/type_info/mod.rs: TypeDescriptor::get_type, Type::new, StructType::field_types, StructVariant::field_types, NamedField::get_type, ListType::element_type, Type::default_value"]}
{"id": "C69", "title": "Fields of struct-like enum variants are found under their names, whatever these are", "statement": "For a derived enum value in a struct-like variant, field(n) and field_mut(n) give the field called n that is not skipped, field_at(i) and name_at(i) the field at position i, and to_value and patch treat every field, whatever the fields are called. This holds exactly if no field of the variant is called name, index, enum_ or variant_matches and no field that is not skipped is called value or new_value. A String field called name makes field(n) ignore n and look for the field whose name is the content of that field, so that such a value is in general not equal to itself, does not convert to its own type and patches nothing; the other names do not compile.", "quantifier": "all struct-like variants with any number of fields of any names and types, skipped or not, all field contents and all requested names and indices", "why_tests_cant": "the property ranges over the identifiers users choose; a test suite has a few", "anchors": ["crates/mirror-mirror-macros/src/derive_reflect/enum_.rs: expand_enum fn_field, fn_field_mut, fn_field_at, fn_field_at_mut, fn_name_at; expand_reflect fn_patch, fn_to_value; VariantData::field_names", "crates/mirror-mirror/src/reflect_eq.rs: reflect_eq_enum"]}
{"id": "C70", "title": "typed access by path is precise", "statement": "get_at::<T>(p) is Some exactly when at(p) is and that part has type T, and is then that part; get_at_mut::<T>(p) is the same place, and assigning a T there is read back by get_at::<T>(p), keeps the type of the whole and changes nothing off the path. If type_at(p) is U then get_at::<U>(p) is at(p).", "quantifier": "every type, value, path and T", "why_tests_cant": "all paths through all values; the reference a path ends in has a different Rust type depending on the container it was taken from", "anchors": ["crates/mirror-mirror/src/key_path.rs: GetPath::get_at, get_at_mut", "crates/mirror-mirror/src/value.rs: Reflect for Value, as_any, as_reflect", "crates/mirror-mirror/src/foreign_impls/boxed.rs: as_any"]}
{"id": "C71", "title": "#[derive(Reflect)] accepts exactly the documented options, in any order, and generates well-formed code for them", "statement": "The attributes of an item, variant or field are accepted exactly if there is at most one #[reflect(..)] and its content is a list of the documented options with no metadata key given twice; the order of the options and optional commas do not matter and each option has its documented effect and no other. The derive goes through exactly if all attributes are accepted, the item is not a union and the identifier HashMap does not occur in it. The from_reflect it generates is well-formed and initialises every field by default, by the given function or by its type's conversion, as its attributes say. The code deviates: a tuple struct with from_reflect_with on a field that is not the last gets a literal with a missing comma; a skipped field whose type mentions HashMap is refused; unit structs are structs, not tuple structs as documented; from_reflect_with on a variant is accepted and ignored.", "quantifier": "all token streams in attributes, all parsers for expressions and paths, all items with any number of fields and variants", "why_tests_cant": "the inputs are arbitrary token streams and declarations; each test is one declaration", "anchors": ["crates/mirror-mirror-macros/src/derive_reflect/attrs.rs: ItemAttrs::parse, InnerAttrs::parse, parse_docs, AttrsDatabase", "crates/mirror-mirror-macros/src/derive_reflect/mod.rs: expand, check_for_known_unsupported_types", "crates/mirror-mirror-macros/src/derive_reflect/tuple_struct.rs: expand_from_reflect", "crates/mirror-mirror-macros/src/derive_reflect/struct_named.rs: expand_from_reflect", "crates/mirror-mirror-macros/src/derive_reflect/enum_.rs: expand_from_reflect, VariantData::try_from_enum"]}
{"id": "C72", "title": "reflect_eq decides one documented relation", "statement": "a.reflect_eq(b) is Some(true) exactly if a and b are of the same kind and: scalars of the same type with a == b; structs with as many fields where each field of a has an equal one of its name in b; tuple structs, tuples, lists and arrays with as many fields and equal ones at each position (up to the first skipped field of either); enums of the same variant name, kind of variant and number of fields, whose fields compare likewise; maps with as many entries where get of each key of a finds an equal value in b. Otherwise it is Some(false); the names of types play no role.", "quantifier": "every two values of any two types, static or dynamic", "why_tests_cant": "all pairs of values of all shapes, of any depth", "anchors": ["crates/mirror-mirror/src/lib.rs: reflect_eq", "crates/mirror-mirror/src/struct_.rs, tuple_struct.rs, enum_.rs, array.rs: the field iterators"]}
{"id": "C73", "title": "skipped fields never show, and nothing else is hidden", "statement": "Two values that differ only in the contents of #[reflect(skip)] fields, at any depth, cannot be told apart by reflection: they have the same to_value, the same fields, the same answers to reflect_eq on either side, from_reflect, at, map lookups and clone_reflect succeed or fail alike with results that again differ only in skipped fields, patching them or with them gives such results, and try_visit makes the same calls. Conversely two values of one type with the same to_value differ at most in skipped fields.", "quantifier": "every two values of any type that differ only in skipped fields at any depth, every third value, target type, path, visitor", "why_tests_cant": "a statement about pairs of values and all operations; a test compares two values under one operation", "anchors": ["crates/mirror-mirror-macros/src/derive_reflect/struct_named.rs, tuple_struct.rs, enum_.rs: filter_out_skipped", "crates/mirror-mirror/src/lib.rs: Reflect, FromReflect, reflect_eq", "crates/mirror-mirror/src/key_path.rs: GetPath::at", "crates/mirror-mirror/src/try_visit.rs: try_visit"]}
{"id": "C74", "title": "copies of reflected values are equal copies", "statement": "to_owned on a dyn Reflect panics only for values whose type is cloned through Value and that contain a tuple struct or tuple variant with a skipped field before a reflected one. The copy has the same type and differs from the original at most in skipped fields; it == exactly what the original ==, on either side; and it == the original exactly if the original == itself (no NaN, no map key that does not convert to its own key type). Cloning a ReflectOwned is to_owned followed by reflect_owned.", "quantifier": "every value of every type, every value it is compared with", "why_tests_cant": "all values of all types; the exceptions lie deep inside values", "anchors": ["crates/mirror-mirror/src/lib.rs: ToOwned for dyn Reflect, PartialEq for dyn Reflect, Clone for ReflectOwned", "crates/mirror-mirror/src/reflect_eq.rs: reflect_eq"]}
{"id": "C75", "title": "values, key paths and type descriptors survive binary serialisation", "statement": "Writing a Value, KeyPath, ScalarOwned, ScalarType or TypeDescriptor with speedy fails only if a string, list or map in it is too long for a u32 length. What was written is read back unchanged, whatever bytes follow it, and these are left; so different things are written differently and no encoding is the beginning of another. Bytes of any origin read, if at all, as something the Rust type can hold and that can be written and read again; of map entries with equal keys the last stays.", "quantifier": "every value, key path, type descriptor the Rust types can hold, every sequence of bytes, every layout of the primitives that is itself faithful", "why_tests_cant": "all values of unbounded depth and all byte sequences; a test writes a few values", "anchors": ["crates/mirror-mirror/src/value.rs: Value (derive speedy)", "crates/mirror-mirror/src/struct_.rs, enum_.rs, tuple.rs, tuple_struct.rs: StructValue, EnumValue, TupleValue, TupleStructValue", "crates/mirror-mirror/src/key_path.rs: KeyPath, Key, NamedOrNumbered", "crates/mirror-mirror/src/lib.rs: ScalarOwned", "crates/mirror-mirror/src/type_info/mod.rs: TypeDescriptor, ScalarType", "crates/mirror-mirror/src/type_info/graph.rs: TypeGraph, TypeNode and the other nodes"]}
{"id": "C76", "title": "the default of a part is the part of the default", "statement": "If T has a default v, then whatever v.at(p) is, at a path p for which T.type_at(p) is a type or variant U, is U.default_value(). v.at(p) is None, although T.type_at(p) is not, exactly if p goes into a list or a map, past the end of an array, or names a variant other than the first. Every path into v becomes, once the variants on its way are named, a path of T. A type or variant found by a path that has_default_value() has a default_value().", "quantifier": "every type descriptor, built or received, every path", "why_tests_cant": "all types of unbounded nesting and all paths", "anchors": ["crates/mirror-mirror/src/type_info/mod.rs: TypeAtPath::default_value, TypeAtPath::has_default_value, GetTypePath::type_at, Type::default_value", "crates/mirror-mirror/src/key_path.rs: GetPath::at"]}
{"id": "C77", "title": "histories of edits through &mut dyn Reflect", "statement": "A program holding a &mut dyn Reflect changes it by going to parts with at_mut and there patching, overwriting through downcast_mut, pushing, popping, inserting or removing. Any such history leaves a proper value of the same type. Edits below a path p return and do what they return and do on the part at p alone, and change nothing at paths that diverge from p. If several clients keep to diverging paths, then in every interleaving of their edits each client is returned what it is returned alone and finds its part as if it were alone, and all interleavings end in the same value.", "quantifier": "every type, every value, every finite sequence of edits with arguments of any types at any paths, any number of clients, every interleaving", "why_tests_cant": "all histories and interleavings of unbounded length over values of unbounded nesting", "anchors": ["crates/mirror-mirror/src/key_path.rs: GetPath::at_mut, GetPath::at", "crates/mirror-mirror/src/lib.rs: Reflect::patch, dyn Reflect::downcast_mut", "crates/mirror-mirror/src/list.rs: List::push, List::pop, List::try_remove", "crates/mirror-mirror/src/map.rs: Map::insert, Map::remove"]}
{"id": "C78", "title": "conversion into Value, collecting, and iterating over key paths", "statement": "Value::from(x) is x.to_value() for everything a Value can be made from, so that a key made from x looks up what a key holding x.to_value() looks up. Collecting names and values into a StructValue gives the record in which each name has its last value and the names keep their order; collecting into a TupleValue or TupleStructValue gives the values in order. field, get, variant and the constructors of Key agree, and collecting keys gives the path of these keys. However next and next_back of the iterators of a KeyPath are mixed, every key is yielded exactly once, in order from either end, and len counts those left.", "quantifier": "every source type and value, every sequence of pairs, values or keys, every sequence of iterator calls", "why_tests_cant": "all values of unbounded nesting and all interleavings of iterator calls", "anchors": ["crates/mirror-mirror/src/value.rs: From impls for Value", "crates/mirror-mirror/src/foreign_impls: From impls for Value", "crates/mirror-mirror/src/struct_.rs: FromIterator for StructValue", "crates/mirror-mirror/src/tuple.rs: FromIterator for TupleValue", "crates/mirror-mirror/src/tuple_struct.rs: FromIterator for TupleStructValue", "crates/mirror-mirror/src/key_path.rs: KeyPath, Key, Iter, IntoIter, field, get, variant"]}
{"id": "C79", "title": "a patch changes the parts it mentions and no others", "statement": "Patching with a Value that mentions one part only (a StructValue with one field, a list with elements up to the one meant and () before it, a map with one entry, nested) is the same as patching that part through at_mut: the part at the path is patched, everything at diverging paths is as before; and if the way does not lead to a part through values of the kinds mentioned, nothing changes. In general, where value and patch both have a part at a path and agree in kind on the way, the patched value has there the part patched with the part; parts the patch does not have, or has of another kind, stay; no part appears, apart from entries of maps and other variants of enums.", "quantifier": "every value of every type, every path through structs, tuple structs, tuples, lists and maps, every Value as new content; every pair of values for the general form", "why_tests_cant": "unbounded nesting, path length, list length and all combinations of types", "anchors": ["crates/mirror-mirror-macros/src/derive_reflect: patch", "crates/mirror-mirror/src/struct_.rs: StructValue::with_field, patch", "crates/mirror-mirror/src/foreign_impls/vec.rs: patch", "crates/mirror-mirror/src/foreign_impls/btree_map.rs: patch", "crates/mirror-mirror/src/tuple.rs: patch", "crates/mirror-mirror/src/key_path.rs: GetPath::at_mut"]}
{"id": "C80", "title": "equal values and equal key paths are interchangeable", "statement": "If x and y have the same type and x.to_value() == y.to_value() (for Values: x == y), then from_reflect::<U> fails for both or gives results with equal to_value, patching anything with x or with y and patching x or y with anything gives equal results, reflect_eq answers the same for both on either side (so x and y are reflect_eq unless x is not reflect_eq to itself), at gives missing or equal parts, clone_reflect panics for both or gives equal clones, and a map finds, removes and overwrites the very same entry under both. == of KeyPath is an equivalence, equal paths hash alike and lead at, at_mut and type_at to the very same place.", "quantifier": "every pair of equal values of every type (including Value, whose == identifies all NaNs and both zeros), every target type, every other operand, every map, every path and pair of equal paths, every lawful Ord of the keys that does not separate equal content", "why_tests_cant": "equal but not identical values can be nested anywhere in unboundedly deep data and meet any operation", "anchors": ["crates/mirror-mirror/src/value.rs: PartialEq, Ord, Hash for Value", "crates/mirror-mirror/src/key_path.rs: KeyPath, Key, NamedOrNumbered (derived Eq, PartialEq, Hash), GetPath::at, at_mut", "crates/mirror-mirror/src/foreign_impls/btree_map.rs: get, get_mut, insert, remove, patch, from_reflect", "crates/mirror-mirror/src/lib.rs: reflect_eq, FromReflect"]}
{"id": "C81", "title": "histories of patches", "statement": "Two patches that have nothing for the same place (not two enums, which replace as a whole) can be applied in either order, and a history of patches no two of which meet gives the same result in every order. In a value of a type without dynamic parts (StructValue, EnumValue, Value and so on), a patch that makes two values equal makes them equal after any further history; a patch can be left out of a history if a later one covers it (has a scalar of the same type, not zero, wherever it has a scalar, field by field, position by position and key by key); and of a patch that occurs several times only the last occurrence counts. In an EnumValue that was in another variant a repeated patch always counts: patched with A{n}, A{m}, A{n} it ends as A{n}, patched with A{m}, A{n} as A{m}.", "quantifier": "every value of every type, every pair and list of patches of any types, every permutation of the list, every history before, between and after the two patches, every lawful Ord of the keys", "why_tests_cant": "all histories and orders of unboundedly many patches of unboundedly deep values", "anchors": ["crates/mirror-mirror/src/lib.rs: Reflect::patch", "crates/mirror-mirror-macros/src/derive_reflect/struct_named.rs: fn_patch", "crates/mirror-mirror-macros/src/derive_reflect/enum_.rs: fn_patch", "crates/mirror-mirror/src/foreign_impls/vec.rs: patch", "crates/mirror-mirror/src/foreign_impls/btree_map.rs: patch", "crates/mirror-mirror/src/enum_.rs: EnumValue::patch"]}
{"id": "C82", "title": "what the Debug output of a reflected value shows", "statement": "Formatting a `dyn Reflect` with {:?} never panics, does not depend on what skipped fields hold (unless a type with its own Debug prints them), and shows everything else: two values of one type that print alike have equal to_value. The last part holds for types without tuples and dynamic types among their components and values without skipped fields in front of others, and for Values at any depth when the Value itself is printed. It fails for tuples, which print the name of their type and none of their elements, so that a list of tuples shows only its length; and for Values inside lists, which print without their types, so that 1u8 and 1i64 look the same, also as keys in a printed KeyPath. A Box prints its content without using the content's own Debug.", "quantifier": "every value of every type at every depth, every choice of which types bring their own Debug and of what it prints, every injective printing of characters and strings, all pairs of values", "why_tests_cant": "injectivity and independence quantify over all pairs of unboundedly deep values and all implementations of Debug", "anchors": ["crates/mirror-mirror/src/lib.rs: impl Debug for dyn Reflect, reflect_debug", "crates/mirror-mirror/src/tuple.rs: Reflect::debug", "crates/mirror-mirror/src/foreign_impls/boxed.rs: debug", "crates/mirror-mirror/src/foreign_impls/vec.rs: debug", "crates/mirror-mirror/src/value.rs: debug", "crates/mirror-mirror-macros/src/derive_reflect/attrs.rs: fn_debug_tokens", "crates/mirror-mirror/src/key_path.rs: Display for Key"]}
{"id": "C83", "title": "the to_value of a value can stand in for it", "statement": "A program that does not know a type can take x.to_value(), read it through key paths, edit it (patch, overwrite, push, pop, remove, insert) at any paths for as long as it likes, and convert the result back: every read gives the to_value of what it gives for x, every edit returns the to_value of what it returns for x, and the conversion back gives what the same edits would have made of x, with its skipped fields reset. This holds for every history of edits that mean the same for the copy: values sent and map keys convert without loss, arrays are not edited as a whole, NonZero integers are not patched with zero, and an enum of a derived type is patched with values that it takes completely or not at all. It fails otherwise: an array's copy is a list, which can be pushed onto and patched by lists; a NonZero's copy takes a zero; a derived enum ignores a variant it does not have while its copy becomes it; a derived enum is replaced by a value of its own variant that converts while its copy is patched field by field; a map finds an entry by a key with extra fields and its copy does not.", "quantifier": "every value of every type at every depth without skipped fields in front of others, every finite history of edits at all paths with all arguments, every Ord of keys that agrees with the equality of Values", "why_tests_cant": "histories, paths, values and patches are unbounded, and the claim compares two different implementations (the derived type and Value) on all of them", "anchors": ["crates/mirror-mirror/src/lib.rs: Reflect::to_value, FromReflect", "crates/mirror-mirror/src/value.rs: Value", "crates/mirror-mirror/src/key_path.rs: GetPath::at, at_mut", "crates/mirror-mirror/src/enum_.rs: EnumValue::patch", "crates/mirror-mirror-macros/src/derive_reflect/enum_.rs: patch", "crates/mirror-mirror/src/foreign_impls/array.rs: patch", "crates/mirror-mirror/src/foreign_impls/vec.rs: patch, push", "crates/mirror-mirror/src/foreign_impls/btree_map.rs: get, insert, try_remove, patch", "crates/mirror-mirror/src/foreign_impls/via_scalar.rs: patch"]}
{"id": "C84", "title": "reading what another version of the types has written", "statement": "A program sends x.to_value() to a program compiled with another version of the types, which reads it with from_reflect. The reader's type takes every value of the writer's type, and gets a proper value of its own, exactly if the declarations fit: every field the reader's struct shows is a field the writer shows under the same name with a type that fits (extra fields, order and the clone opt-out do not matter); for tuple structs and tuple variants the fields at the reader's declared positions fit the fields the writer shows, counted without skipped ones; every variant of the writer's enum is one of the reader's, struct variants read by name, tuple variants by position whatever the writer's kind of variant, unit variants read nothing; tuples may be longer on the writer's side; lists from lists and arrays, arrays from arrays of the same length; maps from maps; NonZero integers also as integers; boxes do not matter; dynamic types take their kind, Value takes everything. If a field is missing, positions are too few or a variant is unknown, nothing is ever read.", "quantifier": "every pair of sets of declarations, recursive or not, every pair of types, every value of the writer's type", "why_tests_cant": "the claim compares all pairs of versions of all types, and for each pair all values of unbounded size; necessity says that no other difference of declarations is tolerated", "anchors": ["crates/mirror-mirror/src/lib.rs: FromReflect, Reflect::to_value", "crates/mirror-mirror-macros/src/derive_reflect/struct_named.rs: from_reflect", "crates/mirror-mirror-macros/src/derive_reflect/tuple_struct.rs: from_reflect", "crates/mirror-mirror-macros/src/derive_reflect/enum_.rs: from_reflect", "crates/mirror-mirror/src/enum_.rs: EnumValue::field_at", "crates/mirror-mirror/src/foreign_impls/array.rs, vec.rs, btree_map.rs, boxed.rs, via_scalar.rs: from_reflect"]}
{"id": "C85", "title": "a program with smaller types writes back what it has read", "statement": "Patching a value with something that only repeats what it holds (some of the fields of its structs, tuples and variants, the same variants, lists of the same lengths and maps with the same keys) changes nothing that is shown; converting such a thing to the type of the value, where possible, gives the value. So when a program whose types know fewer fields (structs with fewer or reordered fields, variants that read fewer fields, other kinds of variants, NonZero integers as integers, anything as Value) reads x.to_value() and sends back the to_value() of what it has read, patching x with it leaves every field, known to that program or not, as it was. The reader must keep map keys whole and must not have skipped fields before shown ones in tuple structs. If the program chooses another variant that has a field it does not know, its choice is dropped.", "quantifier": "every pair of sets of declarations where the reader's type is a view of the writer's, every value of the writer's type, every echo of a value", "why_tests_cant": "relates all pairs of versions of types and all values, of unbounded size, to three operations in a row (to_value, from_reflect, patch); enums switch between conversion and merging depending on what is missing at any depth", "anchors": ["crates/mirror-mirror/src/lib.rs: Reflect::patch, Reflect::to_value, FromReflect", "crates/mirror-mirror-macros/src/derive_reflect/struct_named.rs: patch, from_reflect", "crates/mirror-mirror-macros/src/derive_reflect/tuple_struct.rs: patch, from_reflect", "crates/mirror-mirror-macros/src/derive_reflect/enum_.rs: patch, from_reflect", "crates/mirror-mirror/src/foreign_impls/btree_map.rs: patch, from_reflect", "crates/mirror-mirror/src/foreign_impls/vec.rs: patch, from_reflect"]}
{"id": "C86", "title": "Deserialisation accepts exactly the data that denote a value", "statement": "With the serde feature, a Value or KeyPath is read from data exactly if the data denote it by the declarations of the types: the variant is one of the declared ones, its payload has that variant's form, every field of a struct is present exactly once (by name, in any order, among others that are ignored) or all are given by position, integers fit their type whatever width they are written with, and of the entries of a map with equal keys the first key and the last value count. Everything else is refused. No data denote two values. Reordering the fields of structs, the entries of maps with different keys, or changing integer widths changes nothing.", "quantifier": "all data a self-describing format can present, nested to any depth; both ways to identify variants", "why_tests_cant": "the data are chosen by whoever writes the file; accepting something malformed, at any depth, is not seen by tests that read well-formed data", "anchors": ["crates/mirror-mirror/src/value.rs: Value", "crates/mirror-mirror/src/struct_.rs: StructValue", "crates/mirror-mirror/src/enum_.rs: EnumValue", "crates/mirror-mirror/src/key_path.rs: KeyPath, Key"]}
{"id": "C87", "title": "Deserialisation accepts exactly the data that denote a type descriptor", "statement": "With the serde feature, a TypeDescriptor is read from data exactly if the data denote it by the declarations of the node types: a root id and a graph with one map from ids to nodes or placeholders; each node one of the nine declared variants with that variant's fields, every one present exactly once (by name, in any order, among others that are ignored) or all given by position; ids and lengths numbers of 64 bits written with any width; fields and metadata maps by name; scalars one of the sixteen. Only the default value of an opaque type may be left out, from named data, and then there is none. Everything else is refused, and no data denote two descriptors.", "quantifier": "all data a self-describing format can present; both ways to identify variants; all descriptors", "why_tests_cant": "descriptors arrive from other programs, so the data are arbitrary; a malformed node that is accepted, anywhere in the graph, is not seen by tests that read well-formed descriptors", "anchors": ["crates/mirror-mirror/src/type_info/graph.rs: TypeGraph, TypeNode, StructNode, TupleStructNode, EnumNode, TupleNode, ListNode, ArrayNode, MapNode, ScalarNode, OpaqueNode, NamedFieldNode, UnnamedFieldNode", "crates/mirror-mirror/src/type_info/mod.rs: TypeDescriptor"]}
{"id": "C88", "title": "Exactly the bytes that spell something are read by speedy", "statement": "A value, a key path, a type descriptor, an owned scalar or a kind of scalar is read from bytes, leaving the rest, exactly if the bytes before the rest spell it: the fields of each struct one after the other in the order in which they are declared, each enum as the position of the variant among those declared and then its payload, sequences and maps as their length and their elements, an option as whether there is something and what. Entries of a map may come in any order; of those with equal keys the last counts. What is written is such a spelling. Bytes begin with the spelling of at most one thing, and bytes that end within a spelling are not read.", "quantifier": "every layout of primitives that is faithful and reads each primitive from the bytes it uses up (little endian is one), every sequence of bytes, every value, key path and descriptor of any size and depth", "why_tests_cant": "A round trip succeeds just as well when writer and reader agree on a wrong layout, and the bytes that are rejected are infinitely many; only a characterisation of all accepted bytes shows that other implementations of the format can be talked to.", "anchors": ["crates/mirror-mirror/src/value.rs: Value", "crates/mirror-mirror/src/struct_.rs: StructValue", "crates/mirror-mirror/src/enum_.rs: EnumValue, EnumValueKind", "crates/mirror-mirror/src/key_path.rs: KeyPath, Key, NamedOrNumbered", "crates/mirror-mirror/src/type_info/graph.rs: TypeGraph, TypeNode, StructNode, EnumNode, NamedFieldNode", "crates/mirror-mirror/src/type_info/mod.rs: TypeDescriptor, ScalarType", "crates/mirror-mirror/src/lib.rs: ScalarOwned"]}
{"id": "C89", "title": "What default_value comes to on any descriptor", "statement": "default_value() and has_default_value(), on a type descriptor that was built, read from data or contains opaque types with a default of their own, come to exactly one of four things. Parts are asked for in order, the first part without a default ending the search. It is a value if everything needed has a default, and then the one put together from those, named fields under the name in the field; it is none if something that is asked for refuses (an enum without variants, an opaque type without a default); it is a panic if something that is asked for has no node, lists a field it does not have, or is an array too long for a Vec; and it never returns if something that is asked for asks for itself. Otherwise it returns without more nested calls than there are types in the descriptor, and one. The value can be held, written and read; it can be exponentially larger than the descriptor.", "quantifier": "every type descriptor the Rust type can hold (exactly those that can be read), of any size, with any cycles, missing nodes and missing fields; every id in it; every limit on the length of a Vec", "why_tests_cant": "The descriptors are infinitely many and come from outside; not returning is not something a test can observe, and the bound on the depth of calls is one over all graphs.", "anchors": ["crates/mirror-mirror/src/type_info/mod.rs: TypeDescriptor::default_value, Type::default_value, Type::has_default_value, StructType::default_value, EnumType::default_value, ArrayType::default_value, OpaqueType::default_value", "crates/mirror-mirror/src/type_info/graph.rs: TypeGraph::get, OpaqueNode::default_value"]}
{"id": "C90", "title": "try_visit along a type that need not be the type of the value", "statement": "try_visit takes a value and a type, and nothing ties one to the other. The type asks the value for parts: a struct type for a field of each of its names, a tuple type for a field at each of its positions, an enum type for the fields of its variant of the name of the value's variant, lists, arrays and maps for all elements. If the value has everything that is asked for, at every depth, and every type on the way is in the descriptor, the visitor is called on the leaves in the order of the type and there is no panic; otherwise an accepting visitor's visit panics. Nothing else about the value is looked at: extra fields, their order, their types. A scalar type takes a scalar of any kind. The to_value of a value can be visited along the value's own type exactly if there is no fixed-size array on the way, over the copies of the value's leaves.", "quantifier": "every type graph, closed or not, with each field under its own name; every id; every value, of whatever type; every visitor and state", "why_tests_cant": "Pairs of a value and an unrelated type are infinite in both, and which of them panic depends on parts at any depth.", "anchors": ["crates/mirror-mirror/src/try_visit.rs: try_visit, TryVisit", "crates/mirror-mirror/src/type_info/graph.rs: TypeGraph::get"]}
{"id": "C91", "title": "A visit sees what paths lead to", "statement": "If type_at(p) is a scalar or opaque type and at(p) finds something, a visit of the whole that comes to an end has seen it; at_mut(p) points to it, and a scalar written there is seen by the next visit that comes to an end. The other way round, for a value visited along its own type: every leaf that is visited is at some path, or belongs to an entry of a map at some path, and there to the key, or to a value whose key no Value converts to. For values without maps the leaves visited are exactly the leaves at paths.", "quantifier": "every type, value and path; the first half for every value along every type that lists the names of its fields; the second half for lists no longer than there are indices", "why_tests_cant": "It relates two traversals, one written as a recursion over the type and the other as a loop over keys with its own conversions, at every path of every value of every type", "anchors": ["crates/mirror-mirror/src/try_visit.rs: try_visit", "crates/mirror-mirror/src/key_path.rs: GetPath::at, GetPath::at_mut", "crates/mirror-mirror/src/type_info/mod.rs: TypeAtPath::type_at, GetTypePath"]}
{"id": "C92", "title": "Each leaf of a visit can be changed on its own", "statement": "For a value visited along its own type, every leaf the visit sees, except leaves of map keys, is at some path p; at_mut(p) points to it, and after another scalar (or, for an opaque leaf, another value of its type) is written there, the next visit sees the same leaves in the same order except that the new one stands in the place of the old.", "quantifier": "every type, value, position in the visit and value written; lists no longer than there are indices, and maps each of whose keys some Value converts to", "why_tests_cant": "A write through a path could also touch a second place the visit reads, or shift the order, for some shape of value; the claim covers every position of every visit of every value", "anchors": ["crates/mirror-mirror/src/try_visit.rs: try_visit", "crates/mirror-mirror/src/key_path.rs: GetPath::at_mut"]}
{"id": "C93", "title": "Type descriptors compare and hash by all they hold", "statement": "Two TypeDescriptors are == exactly if they have the same root, ids, nodes, names, docs and metadata keys, and the values in their metadata and their opaque defaults are pairwise ==. This is an equivalence relation (also with NaNs in metadata), equal descriptors and only those write the same to a Hasher, and equal descriptors are interchangeable: they show the same types to navigation and give equal defaults. Reading back a serialised descriptor gives an equal one. Views (Type) of the same type are equal only if all of the graphs they were found in are equal.", "quantifier": "every pair of descriptors the Rust types can hold, built or read, every id in them, every call depth", "why_tests_cant": "Nineteen derives and a hand-written Value comparison have to agree with each other and with Hash on every combination of nodes, metadata and floats; tests compare two pairs", "anchors": ["crates/mirror-mirror/src/type_info/mod.rs: TypeDescriptor, Type (derive PartialEq, Eq, Hash)", "crates/mirror-mirror/src/type_info/graph.rs: TypeGraph, TypeNode and the node types (derive PartialEq, Eq, Hash)", "crates/mirror-mirror/src/value.rs: PartialEq for Value, Hash for Value"]}
{"id": "C94", "title": "A type's descriptor carries everything in the declaration, and keeps it through storage", "statement": "The TypeDescriptor of a type has, for each type it is made of, one node under that type's id, with the type's name, its fields or variants as declared (names in declared order, skipped fields left out), the ids of their types, and all metadata and docs of the item, its variants and its fields, each at its own place; there are no other nodes and no placeholders. This holds if no two of the types have the same 64-bit hash; whatever the hashes, every node in the descriptor is right about some component type, navigating it never panics, and writing the descriptor with serde or speedy and reading it gives the same descriptor back.", "quantifier": "every type that can be described, recursive or not, every set of declarations and attributes, every hash of type ids, every serialisation format for which primitives round-trip", "why_tests_cant": "Whether a name, doc line or metadata value ends up at the wrong node or field depends on the whole shape of the type graph and on which types were built before; tests look at a few declarations", "anchors": ["crates/mirror-mirror/src/type_info/graph.rs: TypeGraph::get_or_build_node_with, StructNode::new, NamedFieldNode::new, UnnamedFieldNode::new, EnumNode::new, StructVariantNode::new", "crates/mirror-mirror/src/type_info/mod.rs: Typed::type_descriptor, DescribeType", "crates/mirror-mirror-macros/src/derive_reflect/struct_named.rs: expand_describe_type", "crates/mirror-mirror-macros/src/derive_reflect/tuple_struct.rs: expand_describe_type", "crates/mirror-mirror-macros/src/derive_reflect/enum_.rs: expand_describe_type"]}
{"id": "C95", "title": "A descriptor as it is stored answers like the type itself", "statement": "In a type's TypeDescriptor with its 64-bit ids, freshly built or written and read back, default_value and has_default_value of any type in it never panic, return exactly when they do if every type has its own id, and return the same; type_at with any path never panics and ends at the same place; the type found at the end of a path has that type's name, fields, variants, metadata and docs; and try_visit of any value along any type in it makes the same calls in the same order and ends the same way. A default read off it converts to the type exactly if none of the types it is made up of has a skipped field before a reflected one in its tuple struct or first variant. This is for types no two of whose component types have the same hash, and arrays no longer than a vector of values can be.", "quantifier": "every type that can be described, recursive or not, every set of declarations and attributes, every hash without a collision among the component types, every type in the descriptor, every path, every call depth", "why_tests_cant": "Whether ids lead to the right nodes depends on the whole type graph and on the hash; tests look at a few descriptors in the process that built them", "anchors": ["crates/mirror-mirror/src/type_info/mod.rs: TypeDescriptor, Type::default_value, Type::has_default_value, GetTypePath::type_at", "crates/mirror-mirror/src/type_info/graph.rs: TypeGraph, NodeId, TypeGraph::get"]}
{"id": "C96", "title": "A type's descriptor tells which Values from_reflect accepts", "statement": "FromReflect::from_reflect accepts a Value exactly if the Value suits the type's descriptor, read as one would read it: a scalar of the described kind; a struct with a suitable value for each described field name; a tuple struct or tuple with a suitable value at each described position; an enum Value whose variant is a described one, with that variant's fields found by name or by position; a list or array (of the described length) of suitable elements; a map of suitable keys and values. It is so for the type itself and every type in its descriptor, also for a descriptor that was written and read in another program; so two programs whose types have equal stored descriptors accept the same Values.", "quantifier": "every type that can be described, recursive or not, every set of declarations, every Value safe code can build, of any depth; every pair of programs", "why_tests_cant": "Editors and other programs build Values from a descriptor alone, for types and values nobody wrote a test for; acceptance is decided at every depth of the Value", "anchors": ["crates/mirror-mirror/src/lib.rs: FromReflect", "crates/mirror-mirror-macros/src/derive_reflect/struct_named.rs: expand_from_reflect", "crates/mirror-mirror-macros/src/derive_reflect/tuple_struct.rs: expand_from_reflect", "crates/mirror-mirror-macros/src/derive_reflect/enum_.rs: expand_from_reflect", "crates/mirror-mirror/src/type_info/mod.rs: TypeDescriptor", "crates/mirror-mirror/src/type_info/graph.rs: TypeNode"]}
{"id": "C97", "title": "A type's descriptor tells what from_reflect keeps of a Value", "statement": "If Type::from_reflect reads a Value and the result is turned into a Value again with to_value, then what comes out is determined by the original Value and the type's descriptor: exactly the described fields, under their names in the described order or at their positions, in the described variant; all elements of lists and arrays; all entries of maps; scalars and opaque values as they were; nothing else. It is so for every type in the descriptor and for descriptors that were written and read in another program; so two programs whose types have equal stored descriptors keep the same of every Value that both read.", "quantifier": "every type that can be described, recursive or not, every set of declarations and key orders, every Value safe code can build, of any depth; every pair of programs", "why_tests_cant": "A tool that passes Values between programs must know from the descriptor alone what will survive, for types and values nobody wrote a test for; loss may happen at any depth", "anchors": ["crates/mirror-mirror/src/from_reflect.rs: FromReflect", "crates/mirror-mirror/src/lib.rs: Reflect::to_value", "crates/mirror-mirror-macros/src/derive_reflect/struct_named.rs: expand_from_reflect", "crates/mirror-mirror-macros/src/derive_reflect/enum_.rs: expand_from_reflect", "crates/mirror-mirror/src/foreign_impls/btree_map.rs: FromReflect", "crates/mirror-mirror/src/type_info/graph.rs: TypeNode"]}
{"id": "C98", "title": "at and reflect_eq see only what the trait methods answer, for hand-written Reflect types too", "statement": "For every implementation of Reflect and its container traits, by the macros or by hand: two values whose methods answer alike (with parts that again answer alike) are found equal or unequal to the same values by reflect_eq and have the same paths under at, so everything known of derived types carries over to a hand-written type that answers like one. reflect_eq returns Some(true) exactly if the values are equal scalars or containers of the same shape with equal parts, and None if either value contains something opaque, as its documentation says.", "quantifier": "every implementation of the traits, including ones that announce a wrong number of fields or yield fields for ever; every pair of values; every key path", "why_tests_cant": "The crate's tests only use types written by its macros; the claims are about implementations that other people will write, and about opaque parts at any place in the value", "anchors": ["crates/mirror-mirror/src/reflect_eq.rs: reflect_eq", "crates/mirror-mirror/src/key_path.rs: GetPath::at", "crates/mirror-mirror/src/lib.rs: ReflectRef, Reflect::reflect_ref", "crates/mirror-mirror/src/struct_.rs: Struct, Iter", "crates/mirror-mirror/src/enum_.rs: Enum, VariantFieldIter"]}
{"id": "C99", "title": "from_reflect sees of a source only what its trait methods answer, for hand-written Reflect types too", "statement": "For every implementation of Reflect, by the macros or by hand: from_reflect of a derived or built-in type gives the same result on two sources that show the same parts, give the same Value and are the same scalar if they are one, even if the sources have different types; on derived sources it is the from_reflect of the other properties, so those carry over to hand-written sources that look like derived ones. A derived struct is read exactly if every field that is not skipped is found under its name and is of the field's type (cloned) or convertible to it; the source's type, other fields, order and announced length do not matter. A Vec is read from a list up to its first missing element. An array is never read from something that shows itself as an array. Whatever the source answers, a result is a value of the target type.", "quantifier": "every implementation of the traits, including ones that announce a wrong length or yield elements for ever; every source value; every target type", "why_tests_cant": "The crate's tests only convert from types written by its macros and from Values; the claims are about sources that other people will write", "anchors": ["crates/mirror-mirror/src/lib.rs: FromReflect, Reflect::as_any, Reflect::to_value, downcast_ref", "crates/mirror-mirror-macros/src/derive_reflect/struct_named.rs: expand_from_reflect", "crates/mirror-mirror-macros/src/derive_reflect/tuple_struct.rs: expand_from_reflect", "crates/mirror-mirror-macros/src/derive_reflect/enum_.rs: expand_from_reflect", "crates/mirror-mirror/src/foreign_impls/vec.rs: FromReflect for Vec", "crates/mirror-mirror/src/foreign_impls/array.rs: FromReflect for [T; N]", "crates/mirror-mirror/src/foreign_impls/btree_map.rs: FromReflect for BTreeMap"]}
{"id": "C100", "title": "patch sees of the patch only what its trait methods answer, for hand-written Reflect types too", "statement": "For every implementation of Reflect of the patch, by the macros or by hand: patch on a derived or built-in value has the same effect with two patches that show the same parts, give the same Value and are the same scalar if they are one (and, when an enum is patched, are both or neither the enum's own value); with derived patches it is the patch of the other properties, so those carry over. A struct changes exactly in the fields that are not skipped and that the patch has under their name, each patched in turn. A Vec keeps its length and is patched up to the patch's first missing element. A patch that shows itself as another kind of thing changes nothing, scalars and enums aside. A derived enum is replaced by a patch of its own type, skipped fields included, and by the conversion of one that only looks like it. Whatever the patch answers, the patched value keeps its type.", "quantifier": "every implementation of the traits, including ones that announce a wrong length or yield elements for ever; every patched value and every patch", "why_tests_cant": "The crate's tests only patch with types written by its macros and with Values; the claims are about patches that other people will write", "anchors": ["crates/mirror-mirror/src/lib.rs: Reflect::patch, Reflect::as_any, Reflect::reflect_ref", "crates/mirror-mirror-macros/src/derive_reflect/struct_named.rs: fn_patch", "crates/mirror-mirror-macros/src/derive_reflect/tuple_struct.rs: fn_patch", "crates/mirror-mirror-macros/src/derive_reflect/enum_.rs: fn_patch", "crates/mirror-mirror/src/foreign_impls/vec.rs: Reflect::patch for Vec", "crates/mirror-mirror/src/foreign_impls/array.rs: Reflect::patch for [T; N]", "crates/mirror-mirror/src/foreign_impls/btree_map.rs: Reflect::patch for BTreeMap"]}
{"id": "C101", "title": "try_visit calls the visitor with the leaves a value shows, for hand-written Reflect types too", "statement": "For every implementation of Reflect, by the macros or by hand, and every type descriptor: try_visit is Ok exactly if the value comes down to scalars and opaque values along the descriptor and the visitor accepts each of them; it is called with them in order, up to the first for which it returns an error, and there is at most one such list. It returns an error exactly if the visitor returns it for a leaf the value begins with, having accepted the ones before, and it panics exactly if something the descriptor asks for is not there (a value of another kind, an unknown variant, a listed field) and the visitor has accepted all the leaves before it. Values that answer alike are visited alike, so a hand-written value that looks like a derived one is visited like it. A list with an element at every position is never visited to the end, whatever length it announces, and a struct without a field the descriptor lists is never visited Ok.", "quantifier": "every implementation of the traits, every type graph and id in it, every value, visitor and state of the visitor", "why_tests_cant": "The crate has no test that visits a type its macros did not write; the claims are about implementations and visitors that other people will write", "anchors": ["crates/mirror-mirror/src/try_visit.rs: try_visit, TryVisit", "crates/mirror-mirror/src/lib.rs: Reflect::reflect_ref"]}
{"id": "C102", "title": "at_mut is sound along every path if mutable access is sound one part at a time, for hand-written Reflect types too", "statement": "For every implementation of Reflect, by the macros or by hand, in which a value's methods for mutable access find the same parts as those for shared access, and overwriting a part changes that part and no other: at_mut finds a reference exactly where at finds a value, and it points to that value; what is written through it is what at finds afterwards; writing back what was there changes nothing; what a path that goes another way leads to stays the same, over any number of writes; and the value keeps its form and variant. Following one path and then another is following both in one, and prefixes of a path that leads somewhere lead somewhere. A path ending in ::Variant leads to the enum itself, and writing there replaces it. The derived and built-in types meet the condition. An implementation whose field_mut gives another field than field does not have these properties.", "quantifier": "every implementation of the traits that meets the condition, every value, every two paths, every value written that may stand at that place", "why_tests_cant": "The crate has no test of at_mut on a type its macros did not write, and paths have any length; the claims are about implementations that other people will write", "anchors": ["crates/mirror-mirror/src/key_path.rs: GetPath::at_mut, GetPath::at", "crates/mirror-mirror/src/lib.rs: Reflect::reflect_mut, ReflectMut"]}
{"id": "C103", "title": "reflect_debug prints a value's parts up to the first position that has none, for hand-written Reflect types too", "statement": "For every implementation of Reflect, by the macros or by hand: reflect_debug makes the formatter calls for the kind of container the value says it is, with its type name (none for tuples, the variant's name for enums), and with its fields, elements or entries in order up to the first position that has none, whatever number it announces. It never panics. It comes to an end exactly if some position has none. Values that answer alike and have the same type name print alike, so a hand-written value that looks like a derived one prints like it.", "quantifier": "every implementation of the traits, every value", "why_tests_cant": "The crate has no test that prints a type its macros did not write; the claims are about implementations that other people will write", "anchors": ["crates/mirror-mirror/src/lib.rs: reflect_debug", "crates/mirror-mirror/src/enum_.rs: VariantFieldIter"]}
{"id": "C104", "title": "get_at, get_at_mut and get_field give typed access, for hand-written Reflect types too", "statement": "For every implementation of Reflect, by the macros or by hand: along one path get_at finds something of at most one type. If as_any is the value itself, get_at::<T> finds exactly what at finds, if that is a T. If the mutable access of every value and its as_any_mut do what they say, part by part, then get_at_mut::<T> points to what get_at::<T> finds; a T written there is what get_at::<T> finds afterwards, and stays so over later writes that go another way, and get_at with other types finds nothing there; writing back what is there changes nothing; and what get_at finds along other paths is as before. get_field and get_field_mut find what get_at and get_at_mut find along the path of that one name, index or key, except on an enum in a variant of another kind. Derived and built-in types are such implementations.", "quantifier": "every implementation of the traits, every value, path and type, every sequence of writes", "why_tests_cant": "The claims are about implementations that other people will write, and about every path and history of writes", "anchors": ["crates/mirror-mirror/src/key_path.rs: GetPath::get_at, GetPath::get_at_mut", "crates/mirror-mirror/src/lib.rs: <dyn Reflect>::downcast_ref, downcast_mut, Reflect::as_any, as_any_mut", "crates/mirror-mirror/src/get_field.rs: GetField, GetFieldMut"]}
