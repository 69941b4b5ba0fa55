import Verif.Model.Reflect

/-!
# Key paths

`KeyPath`, `at`, `at_mut`, `breadcrumbs` (key_path.rs).
-/

namespace Mirror

/-- `Key` (key_path.rs:379-383), with `NamedOrNumbered` (key_path.rs:420-423) unfolded into the two
field keys. -/
inductive Key
  | named (n : String)
  | numbered (i : Nat)
  | get (v : Value)
  | variant (v : String)
  deriving Repr, Inhabited

/-- `KeyPath` (key_path.rs:221-223): the vector `path`. -/
abbrev KeyPath := List Key

/-! ## Building paths -/

/-- `KeyPath::push` (key_path.rs:253-255). -/
def KeyPath.push (p : KeyPath) (k : Key) : KeyPath := p ++ [k]

/-- `KeyPath::pop` (key_path.rs:265-267): drops the last key, if any. -/
def KeyPath.pop (p : KeyPath) : KeyPath := p.dropLast

/-- `KeyPath::field`/`push_field` with a string (key_path.rs:226-233,438-454). -/
def KeyPath.field (p : KeyPath) (n : String) : KeyPath := KeyPath.push p (.named n)

/-- `KeyPath::field`/`push_field` with a `usize` (key_path.rs:226-233,456-460). -/
def KeyPath.fieldAt (p : KeyPath) (i : Nat) : KeyPath := KeyPath.push p (.numbered i)

/-- `KeyPath::get`/`push_get` (key_path.rs:235-242). -/
def KeyPath.getKey (p : KeyPath) (v : Value) : KeyPath := KeyPath.push p (.get v)

/-- `KeyPath::variant`/`push_variant` (key_path.rs:244-251). -/
def KeyPath.variant (p : KeyPath) (v : String) : KeyPath := KeyPath.push p (.variant v)

/-- `KeyPath::len` (key_path.rs:257-259). -/
def KeyPath.len (p : KeyPath) : Nat := List.length p

/-- `KeyPath::is_empty` (key_path.rs:261-263). -/
def KeyPath.isEmpty (p : KeyPath) : Bool := List.isEmpty p

/-- `Extend for KeyPath` (key_path.rs:289-296). -/
def KeyPath.extend (p : KeyPath) (ks : List Key) : KeyPath := p ++ ks

/-- `From<Key> for KeyPath` (key_path.rs:281-287). -/
def KeyPath.ofKey (k : Key) : KeyPath := KeyPath.push [] k

/-- The token tree accepted by `key_path!`: one alternative per recursive rule of the macro
(key_path.rs:488-538). -/
inductive PathTok
  | dotIdent (n : String)
  | dotLit (i : Nat)
  | bracket (v : Value)
  | colons (v : String)
  deriving Repr, Inhabited

/-- `key_path!` (key_path.rs:478-557): the accumulator rules, left to right. -/
def keyPathMacro (acc : KeyPath) : List PathTok → KeyPath
  | [] => acc
  | .dotIdent n :: r => keyPathMacro (KeyPath.field acc n) r
  | .dotLit i :: r => keyPathMacro (KeyPath.fieldAt acc i) r
  | .bracket v :: r => keyPathMacro (KeyPath.getKey acc v) r
  | .colons v :: r => keyPathMacro (KeyPath.variant acc v) r

/-- `Display for Key` (key_path.rs:407-415) and `NamedOrNumbered` (key_path.rs:425-432), as a list of
characters. The debug output of the value in `[..]` is a parameter. -/
def Key.display (dbg : Value → List Char) : Key → List Char
  | .named n => '.' :: n.toList
  | .numbered i => '.' :: Nat.toDigits 10 i
  | .get v => '[' :: (dbg v ++ [']'])
  | .variant v => ':' :: ':' :: v.toList

/-- `Display for KeyPath` (key_path.rs:559-566). -/
def KeyPath.display (dbg : Value → List Char) : KeyPath → List Char
  | [] => []
  | k :: r => k.display dbg ++ KeyPath.display dbg r

/-! ## Breadcrumbs -/

/-- `Breadcrumbs` (key_path.rs:606-610). -/
structure Breadcrumbs where
  keyPath : KeyPath
  index : Nat

/-- `KeyPath::breadcrumbs` (key_path.rs:273-278). -/
def KeyPath.breadcrumbs (p : KeyPath) : Breadcrumbs := ⟨p, 1⟩

/-- `slice.get(0..i)` (std): `None` when `i` is past the end. -/
def sliceTo {α} (l : List α) (i : Nat) : Option (List α) :=
  if i ≤ l.length then some (l.take i) else none

/-- `Breadcrumbs::next` (key_path.rs:615-619): on `None` the index is not advanced. -/
def Breadcrumbs.next (b : Breadcrumbs) : Option (List Key) × Breadcrumbs :=
  match sliceTo b.keyPath b.index with
  | none => (none, b)
  | some ks => (some ks, { b with index := b.index + 1 })

/-! ## Reading -/

/-- `2^64`: the number of values of `usize` on the 64-bit targets this models. -/
def usizeSize : Nat := 18446744073709551616

/-- `value_to_usize` (key_path.rs:568-593): the `as usize` casts wrap modulo the size of `usize`. -/
def valueToUsize : Value → Option Nat
  | .scalar (.int _ n) => some (n % (usizeSize : Int)).toNat
  | _ => none

/-- One step of `at` (key_path.rs:53-114). -/
def Obj.atKey (E : Env) (o : Obj) : Key → Option Obj
  | .named n =>
    match o.kind with
    | .struct => o.field n
    | .enum =>
      match o.variantKind with
      | some .struct => o.field n
      | _ => none
    | _ => none
  | .numbered i =>
    match o.kind with
    | .tupleStruct => o.fieldAt i
    | .tuple => o.fieldAt i
    | .enum =>
      match o.variantKind with
      | some .tuple => o.fieldAt i
      | _ => none
    | _ => none
  | .get v =>
    match o.kind with
    | .map => o.mapGet E v.toObj
    | .array => (valueToUsize v).bind fun i => o.fieldAt i
    | .list => (valueToUsize v).bind fun i => o.fieldAt i
    | _ => none
  | .variant v =>
    match o.kind with
    | .enum => if o.variantName = some v then some o else none
    | _ => none

/-- The inner function of `at` (key_path.rs:44-121): the remaining keys are consumed one by one; when
none is left after a step its result is returned. -/
def atGo (E : Env) (o : Obj) : List Key → Option Obj
  | [] => none
  | k :: r =>
    match o.atKey E k with
    | none => none
    | some x =>
      match r with
      | [] => some x
      | k' :: r' => atGo E x (k' :: r')

/-- `GetPath::at` (key_path.rs:43-128). -/
def atPath (E : Env) (o : Obj) (p : KeyPath) : Option Obj :=
  if KeyPath.isEmpty p then some o else atGo E o p

/-! ## Writing -/

/-- A `&mut dyn Reflect` into a larger object: what it currently points to, and what the whole object
becomes when that is overwritten. -/
structure Place where
  get : Obj
  put : Obj → Obj

/-- `reflect_mut` (lib.rs:575-577,647-649; struct_named.rs:182-186; via_scalar.rs:40-42): as
`reflect_ref`, except that `NonZero` integers are opaque. -/
def Obj.kindMut : Obj → Kind
  | .nonzero _ _ => .opaque
  | o => o.kind

/-- Mutable access to the first reflected field with a given name. -/
def placeNamed (n : String) : List (String × Obj) → Option (Obj × (Obj → List (String × Obj)))
  | [] => none
  | (m, x) :: r =>
    if m = n ∧ x.isHidden = false then some (x, fun z => (m, z) :: r)
    else
      match placeNamed n r with
      | none => none
      | some q => some (q.1, fun z => (m, x) :: q.2 z)

/-- `slice.get_mut(i)` (std). -/
def placeIdx (i : Nat) : List Obj → Option (Obj × (Obj → List Obj))
  | [] => none
  | x :: r =>
    match i with
    | 0 => some (x, fun z => z :: r)
    | i + 1 =>
      match placeIdx i r with
      | none => none
      | some q => some (q.1, fun z => x :: q.2 z)

/-- Mutable access to a positional field by declared index, skipped ones excluded. -/
def placeAt (i : Nat) : List Obj → Option (Obj × (Obj → List Obj))
  | [] => none
  | x :: r =>
    match i with
    | 0 => if x.isHidden then none else some (x, fun z => z :: r)
    | i + 1 =>
      match placeAt i r with
      | none => none
      | some q => some (q.1, fun z => x :: q.2 z)

/-- `BTreeMap::get_mut` (std). -/
def placeKey (cmp : Obj → Obj → Ordering) (k : Obj) :
    List (Obj × Obj) → Option (Obj × (Obj → List (Obj × Obj)))
  | [] => none
  | (k', x) :: r =>
    if cmp k k' = .eq then some (x, fun z => (k', z) :: r)
    else
      match placeKey cmp k r with
      | none => none
      | some q => some (q.1, fun z => (k', x) :: q.2 z)

/-- `Struct::field_mut`, `Enum::field_mut` (struct_named.rs:290-310, struct_.rs:137-143, macros
enum_.rs:576-622, enum_.rs:282-288). -/
def Obj.fieldMut (o : Obj) (n : String) : Option Place :=
  match o with
  | .struct tag fs => (placeNamed n fs).map fun q => ⟨q.1, fun z => .struct tag (q.2 z)⟩
  | .enumS tag v fs => (placeNamed n fs).map fun q => ⟨q.1, fun z => .enumS tag v (q.2 z)⟩
  | _ => none

/-- Mutable access to a field of a derived struct by its index among the reflected fields
(struct_named.rs:334-354: `filter` comes before `enumerate`). -/
def placeVis (i : Nat) : List (String × Obj) → Option (Obj × (Obj → List (String × Obj)))
  | [] => none
  | (m, x) :: r =>
    if x.isHidden then (placeVis i r).map fun q => (q.1, fun z => (m, x) :: q.2 z)
    else
      match i with
      | 0 => some (x, fun z => (m, z) :: r)
      | i + 1 => (placeVis i r).map fun q => (q.1, fun z => (m, x) :: q.2 z)

/-- `field_at_mut` of structs (struct_named.rs:334-354, struct_.rs:166-169), tuple structs, tuples and
enum variants (tuple_struct.rs:125-127, macros tuple_struct.rs:292-314, tuple.rs:74-76,241-251, macros
enum_.rs:688-752, enum_.rs:298-304) and `get_mut` of lists and arrays (vec.rs:52-56,
array.rs:79-81). -/
def Obj.fieldAtMut (o : Obj) (i : Nat) : Option Place :=
  match o with
  | .struct (.derived n) fs =>
    (placeVis i fs).map fun q => ⟨q.1, fun z => .struct (.derived n) (q.2 z)⟩
  | .struct (.dyn ns) fs =>
    ns[i]?.bind fun n => (placeNamed n fs).map fun q => ⟨q.1, fun z => .struct (.dyn ns) (q.2 z)⟩
  | .enumS (.derived n) v fs =>
    (placeAt i (fs.map (·.2))).map fun q =>
      ⟨q.1, fun z => .enumS (.derived n) v ((fs.map (·.1)).zip (q.2 z))⟩
  | .enumS (.dyn ns) v fs =>
    ns[i]?.bind fun n => (placeNamed n fs).map fun q => ⟨q.1, fun z => .enumS (.dyn ns) v (q.2 z)⟩
  | .tupleStruct tag fs => (placeAt i fs).map fun q => ⟨q.1, fun z => .tupleStruct tag (q.2 z)⟩
  | .tuple tag fs => (placeAt i fs).map fun q => ⟨q.1, fun z => .tuple tag (q.2 z)⟩
  | .enumT tag v fs => (placeAt i fs).map fun q => ⟨q.1, fun z => .enumT tag v (q.2 z)⟩
  | .vec t xs => (placeIdx i xs).map fun q => ⟨q.1, fun z => .vec t (q.2 z)⟩
  | .array t xs => (placeIdx i xs).map fun q => ⟨q.1, fun z => .array t (q.2 z)⟩
  | _ => none

/-- `Map::get_mut` (btree_map.rs:30-34). -/
def Obj.mapGetMut (E : Env) (o : Obj) (k : Obj) : Option Place :=
  match o with
  | .map kt vt kvs =>
    match fromReflect E kt k with
    | none => none
    | some k' => (placeKey (E.kcmp kt) k' kvs).map fun q => ⟨q.1, fun z => .map kt vt (q.2 z)⟩
  | _ => none

/-- One step of `at_mut` (key_path.rs:140-201). -/
def Obj.atKeyMut (E : Env) (o : Obj) : Key → Option Place
  | .named n =>
    match o.kindMut with
    | .struct => o.fieldMut n
    | .enum =>
      match o.variantKind with
      | some .struct => o.fieldMut n
      | _ => none
    | _ => none
  | .numbered i =>
    match o.kindMut with
    | .tupleStruct => o.fieldAtMut i
    | .tuple => o.fieldAtMut i
    | .enum =>
      match o.variantKind with
      | some .tuple => o.fieldAtMut i
      | _ => none
    | _ => none
  | .get v =>
    match o.kindMut with
    | .array => (valueToUsize v).bind fun i => o.fieldAtMut i
    | .list => (valueToUsize v).bind fun i => o.fieldAtMut i
    | .map => o.mapGetMut E v.toObj
    | _ => none
  | .variant v =>
    match o.kindMut with
    | .enum => if o.variantName = some v then some ⟨o, fun z => z⟩ else none
    | _ => none

/-- The inner function of `at_mut` (key_path.rs:131-208). -/
def atMutGo (E : Env) (o : Obj) : List Key → Option Place
  | [] => none
  | k :: r =>
    match o.atKeyMut E k with
    | none => none
    | some pl =>
      match r with
      | [] => some pl
      | k' :: r' =>
        match atMutGo E pl.get (k' :: r') with
        | none => none
        | some pl' => some ⟨pl'.get, fun z => pl.put (pl'.put z)⟩

/-- `GetPath::at_mut` (key_path.rs:130-215). -/
def atMutPath (E : Env) (o : Obj) (p : KeyPath) : Option Place :=
  if KeyPath.isEmpty p then some ⟨o, fun z => z⟩ else atMutGo E o p

end Mirror
