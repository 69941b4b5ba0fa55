import Verif.Model.Obj

/-!
# Reflection operations

Accessors, `from_reflect`, `patch`, `clone_reflect`, `reflect_eq`.
-/

namespace Mirror

/-! ## Views -/

/-- The variants of `ReflectRef` (lib.rs:890-900), and the kinds of type info. -/
inductive Kind
  | struct | tupleStruct | tuple | enum | array | list | map | scalar | opaque
  deriving DecidableEq, Repr, Inhabited

/-- `reflect_ref` (lib.rs:571-573, 643-645; struct_named.rs:178-180; tuple_struct.rs:179-181;
enum_.rs:340-342; vec.rs:122-124; array.rs:38-40; btree_map.rs:93-95; tuple.rs:215-217;
via_scalar.rs:36-38; value.rs:240-265 through the embedding). -/
def Obj.kind : Obj → Kind
  | .scalar _ | .nonzero _ _ => .scalar
  | .struct .. => .struct
  | .tupleStruct .. => .tupleStruct
  | .tuple .. => .tuple
  | .enumS .. | .enumT .. | .enumU .. => .enum
  | .vec .. => .list
  | .array .. => .array
  | .map .. => .map
  | .hidden _ => .opaque

/-- `VariantKind` (enum_.rs:41-46). -/
inductive VKind
  | struct | tuple | unit
  deriving DecidableEq, Repr, Inhabited

/-- `Enum::variant_kind` (macros enum_.rs:504-526, enum_.rs:266-272). -/
def Obj.variantKind : Obj → Option VKind
  | .enumS .. => some .struct
  | .enumT .. => some .tuple
  | .enumU .. => some .unit
  | _ => none

/-- `Enum::variant_name` (macros enum_.rs:486-502, enum_.rs:262-264). -/
def Obj.variantName : Obj → Option String
  | .enumS _ v _ => some v
  | .enumT _ v _ => some v
  | .enumU _ v => some v
  | _ => none

/-- The fields without `#[reflect(skip)]` (macros attrs.rs:222-250, enum_.rs:1061-1066: `filter_out_skipped*`). -/
def visFields (fs : List (String × Obj)) : List (String × Obj) :=
  fs.filter fun p => !p.2.isHidden

/-- Positional access by declared index that finds nothing at a skipped position
(tuple_struct.rs:267-290, macros enum_.rs:650-668: `enumerate` happens before filtering). -/
def visAt (fs : List Obj) (i : Nat) : Option Obj :=
  match fs[i]? with
  | some x => if x.isHidden then none else some x
  | none => none

/-- `Struct::field` and `Enum::field` (struct_named.rs:268-288, struct_.rs:133-135,
macros enum_.rs:528-574, enum_.rs:274-280). Simplification: a derived struct-like variant is taken to
have no field called `name`, which would capture the parameter (`Model/Hygiene`). -/
def Obj.field (o : Obj) (n : String) : Option Obj :=
  match o with
  | .struct _ fs => lookup n (visFields fs)
  | .enumS _ _ fs => lookup n (visFields fs)
  | _ => none

/-- `field_at` of the `Struct`, `TupleStruct`, `Tuple` and `Enum` traits and `Array::get`.

* derived struct: index among the non-skipped fields (struct_named.rs:312-332);
* `StructValue`: through `field_names` (struct_.rs:157-160);
* derived tuple struct and enum variants: declared index (tuple_struct.rs:267-290,
  macros enum_.rs:624-686);
* dynamic enum: enum_.rs:290-296; tuples: tuple.rs:70-72,229-239; lists and arrays: vec.rs:48-50,
  array.rs:75-77. -/
def Obj.fieldAt (o : Obj) (i : Nat) : Option Obj :=
  match o with
  | .struct (.derived _) fs => ((visFields fs)[i]?).map (·.2)
  | .struct (.dyn ns) fs => ns[i]?.bind fun n => lookup n fs
  | .enumS (.derived _) _ fs => visAt (fs.map (·.2)) i
  | .enumS (.dyn ns) _ fs => ns[i]?.bind fun n => lookup n fs
  | .tupleStruct _ fs => visAt fs i
  | .tuple _ fs => visAt fs i
  | .enumT _ _ fs => visAt fs i
  | .vec _ xs => xs[i]?
  | .array _ xs => xs[i]?
  | _ => none

/-- `name_at` of the `Struct` and `Enum` traits (struct_named.rs:356-376, struct_.rs:162-164,
macros enum_.rs:864-924, enum_.rs:334-340). A derived tuple variant answers with the identifier the
macro invents, `field_<i>` (macros enum_.rs:983-990, 1019-1023). -/
def Obj.nameAt (o : Obj) (i : Nat) : Option String :=
  match o with
  | .struct (.derived _) fs => ((visFields fs)[i]?).map (·.1)
  | .struct (.dyn ns) _ => ns[i]?
  | .enumS (.derived _) _ fs => (fs[i]?).bind fun p => if p.2.isHidden then none else some p.1
  | .enumS (.dyn ns) _ _ => ns[i]?
  | .enumT (.derived _) _ fs => (visAt fs i).map fun _ => "field_" ++ toString i
  | _ => none

/-- `fields_len`, or `len` of lists, arrays and maps (struct_named.rs:408-419, struct_.rs:153-155,
tuple_struct.rs:350-362, macros enum_.rs:825-862, enum_.rs:326-332, tuple.rs:87-89,262-269,
vec.rs:58-60, array.rs:85-87, btree_map.rs:49-51). -/
def Obj.fieldsLen : Obj → Nat
  | .struct (.derived _) fs => (visFields fs).length
  | .struct (.dyn ns) _ => ns.length
  | .enumS (.derived _) _ fs => (visFields fs).length
  | .enumS (.dyn ns) _ _ => ns.length
  | .tupleStruct _ fs => (fs.filter fun x => !x.isHidden).length
  | .tuple _ fs => (fs.filter fun x => !x.isHidden).length
  | .enumT _ _ fs => (fs.filter fun x => !x.isHidden).length
  | .vec _ xs => xs.length
  | .array _ xs => xs.length
  | .map _ _ kvs => kvs.length
  | _ => 0

/-- What iterating over `StructValue::fields()` yields (struct_.rs:213-222): walk `field_names`,
stopping at the first name without an entry. -/
def dynIter (fs : List (String × Obj)) : List String → List (String × Obj)
  | [] => []
  | n :: ns =>
    match lookup n fs with
    | some x => (n, x) :: dynIter fs ns
    | none => []

/-- The named pairs yielded by `fields()` on a struct or struct variant: struct_.rs:213-222,
enum_.rs:401-407. For derived enum variants indices have gaps at skipped fields, and iteration stops
at the first one. That this list is what repeated `next` calls produce is proved in
`Verif.Props.Iterators`. -/
def Obj.namedIter : Obj → List (String × Obj)
  | .struct (.derived _) fs => visFields fs
  | .struct (.dyn ns) fs => dynIter fs ns
  | .enumS (.derived _) _ fs => fs.takeWhile fun p => !p.2.isHidden
  | .enumS (.dyn ns) _ fs => dynIter fs ns
  | _ => []

/-- The values yielded by `fields()`/`iter()` on positional containers: tuple_struct.rs:185-193,
tuple.rs:334-342, enum_.rs:408-411, array.rs:40-48. -/
def Obj.posIter : Obj → List Obj
  | .tupleStruct _ fs => fs.takeWhile fun x => !x.isHidden
  | .tuple _ fs => fs.takeWhile fun x => !x.isHidden
  | .enumT _ _ fs => fs.takeWhile fun x => !x.isHidden
  | .vec _ xs => xs
  | .array _ xs => xs
  | _ => []

/-- The scalar shown by `reflect_ref` (lib.rs:571-573, via_scalar.rs:36-38). -/
def Obj.asScalar : Obj → Option Scalar
  | .scalar s => some s
  | .nonzero k n => some (.int k n)
  | _ => none

/-! ## Size lemmas for the recursion -/

theorem lookup_visFields_mem {n : String} {fs : List (String × Obj)} {x : Obj}
    (h : lookup n (visFields fs) = some x) : (n, x) ∈ fs :=
  (List.mem_filter.mp (lookup_mem h)).1

theorem visAt_mem {fs : List Obj} {i : Nat} {x : Obj} (h : visAt fs i = some x) : x ∈ fs := by
  unfold visAt at h
  split at h
  · next y hy =>
    split at h
    · cases h
    · cases h; exact List.mem_of_getElem? hy
  · cases h

theorem Obj.field_size {o : Obj} {n : String} {x : Obj} (h : o.field n = some x) :
    sizeOf x < sizeOf o := by
  cases o <;> simp only [Obj.field, reduceCtorEq] at h
  all_goals
    have := sizeOf_snd_lt_of_mem (lookup_visFields_mem h)
    simp_all <;> omega

theorem Obj.fieldAt_size {o : Obj} {i : Nat} {x : Obj} (h : o.fieldAt i = some x) :
    sizeOf x < sizeOf o := by
  cases o <;> simp only [Obj.fieldAt, reduceCtorEq] at h
  case struct tag fs =>
    cases tag <;> simp at h
    · obtain ⟨n, h⟩ := h
      have := sizeOf_snd_lt_of_mem (List.mem_filter.mp (List.mem_of_getElem? h)).1
      simp_all; omega
    · obtain ⟨n, _, h⟩ := Option.bind_eq_some_iff.mp h
      have := sizeOf_lt_of_lookup h
      simp; omega
  case enumS tag v fs =>
    cases tag <;> simp at h
    · have h := visAt_mem h
      simp only [List.mem_map] at h
      obtain ⟨p, hp, rfl⟩ := h
      have := sizeOf_snd_lt_of_mem hp
      simp; omega
    · obtain ⟨n, _, h⟩ := Option.bind_eq_some_iff.mp h
      have := sizeOf_lt_of_lookup h
      simp; omega
  case vec => have := sizeOf_lt_of_getElem? h; simp; omega
  case array => have := sizeOf_lt_of_getElem? h; simp; omega
  all_goals
    have := List.sizeOf_lt_of_mem (visAt_mem h)
    simp; omega

theorem dynIter_mem {fs : List (String × Obj)} {ns : List String} {p : String × Obj}
    (h : p ∈ dynIter fs ns) : p ∈ fs := by
  induction ns with
  | nil => simp [dynIter] at h
  | cons n ns ih =>
    simp only [dynIter] at h
    split at h
    · next x hx =>
      rcases List.mem_cons.mp h with rfl | h
      · exact lookup_mem hx
      · exact ih h
    · simp at h

theorem Obj.namedIter_size {o : Obj} {p : String × Obj} (h : p ∈ o.namedIter) :
    sizeOf p.2 < sizeOf o := by
  cases o <;> simp only [Obj.namedIter, List.not_mem_nil] at h
  case struct tag fs =>
    cases tag
    · have := sizeOf_snd_lt_of_mem (List.mem_filter.mp h).1; simp; omega
    · have := sizeOf_snd_lt_of_mem (dynIter_mem h); simp; omega
  case enumS tag v fs =>
    cases tag
    · have := sizeOf_snd_lt_of_mem ((List.takeWhile_prefix _).subset h); simp; omega
    · have := sizeOf_snd_lt_of_mem (dynIter_mem h); simp; omega

theorem sizeOf_zip {xs ys : List Obj} {p : Obj × Obj} (h : p ∈ xs.zip ys) :
    sizeOf p.1 < sizeOf xs :=
  List.sizeOf_lt_of_mem (List.of_mem_zip (a := p.1) (b := p.2) h).1

theorem sizeOf_takeWhile_zip {q : Obj → Bool} {xs ys : List Obj} {p : Obj × Obj}
    (h : p ∈ (xs.takeWhile q).zip ys) : sizeOf p.1 < sizeOf xs :=
  List.sizeOf_lt_of_mem
    ((List.takeWhile_prefix _).subset (List.of_mem_zip (a := p.1) (b := p.2) h).1)

/-- All results, or nothing if one is missing: the `?` inside a loop or a constructor. -/
def optAll {α} : List (Option α) → Option (List α)
  | [] => some []
  | none :: _ => none
  | some x :: r => (optAll r).map (x :: ·)

/-! ## `from_reflect` -/

/-- Build a `StructValue` from name/value pairs: struct_.rs:172-182. -/
def dynStruct (l : List (String × Obj)) : List String × List (String × Value) :=
  svOfList (l.map fun p => (p.1, p.2.toValue))

/-- `T::from_reflect(&o)` for `T` given by a type expression.

* scalars lib.rs:588-592,660-664; `NonZero*` via_scalar.rs:68-77;
* derived struct struct_named.rs:189-259, derived tuple struct tuple_struct.rs:190-258, derived enum
  macros enum_.rs:351-478 (per field: skipped fields get their default; without `opt_out(Clone)` a
  value that already has the field's type is cloned; otherwise the field's own `from_reflect`);
* tuple tuple.rs:277-283; `Vec` vec.rs:135-142; array array.rs:110-112; map btree_map.rs:134-141;
  `Box` boxed.rs:84-86;
* `Value` value.rs:64-68; `StructValue` struct_.rs:172-182; `TupleStructValue`
  tuple_struct.rs:142-152; `TupleValue` tuple.rs:142-152; `EnumValue` enum_.rs:343-384.

A user `Clone` is taken to return the same value. -/
def fromReflect (E : Env) (t : Ty) (o : Obj) : Option Obj :=
  match t with
  | .scalar k => if o.isTy (.scalar k) then some o else none
  | .nonzero k =>
    if o.isTy (.nonzero k) then some o
    else
      match o with
      | .scalar (.int k' n) => if k' = k ∧ n ≠ 0 then some (.nonzero k n) else none
      | _ => none
  | .named n =>
    match E.decl n with
    | some ⟨.struct fds, c⟩ =>
      if o.kind = .struct then
        (optAll (fds.map fun fd =>
          if fd.skip then some (fd.name, Obj.hidden 0)
          else
            match _h : o.field fd.name with
            | none => none
            | some v =>
              if !c && v.isTy fd.ty then some (fd.name, v)
              else (fromReflect E fd.ty v).map fun y => (fd.name, y))).map
          (Obj.struct (.derived n))
      else none
    | some ⟨.tupleStruct fds, c⟩ =>
      if o.kind = .tupleStruct then
        (optAll (fds.mapIdx fun i fd =>
          if fd.skip then some (Obj.hidden 0)
          else
            match _h : o.fieldAt i with
            | none => none
            | some v => if !c && v.isTy fd.ty then some v else fromReflect E fd.ty v)).map
          (Obj.tupleStruct (.derived n))
      else none
    | some ⟨.enum vds, c⟩ =>
      match o.variantName with
      | none => none
      | some vn =>
        match vds.find? fun vd => vd.name = vn with
        | none => none
        | some (.struct vn fds) =>
          (optAll (fds.map fun fd =>
            if fd.skip then some (fd.name, Obj.hidden 0)
            else
              match _h : o.field fd.name with
              | none => none
              | some v =>
                if !c && v.isTy fd.ty then some (fd.name, v)
                else (fromReflect E fd.ty v).map fun y => (fd.name, y))).map
            (Obj.enumS (.derived n) vn)
        | some (.tuple vn fds) =>
          (optAll (fds.mapIdx fun i fd =>
            if fd.skip then some (Obj.hidden 0)
            else
              match _h : o.fieldAt i with
              | none => none
              | some v => if !c && v.isTy fd.ty then some v else fromReflect E fd.ty v)).map
            (Obj.enumT (.derived n) vn)
        | some (.unit vn) => some (.enumU (.derived n) vn)
    | none => none
  | .tuple ts =>
    if o.kind = .tuple then
      (optAll (ts.mapIdx fun i t =>
        match _h : o.fieldAt i with
        | none => none
        | some v => fromReflect E t v)).map (Obj.tuple (.typed ts))
    else none
  | .vec t =>
    match o with
    | .vec _ xs => (optAll (xs.map fun x => fromReflect E t x)).map (Obj.vec t)
    | _ => none
  | .array t len =>
    match o with
    | .vec _ xs =>
      match optAll (xs.map fun x => fromReflect E t x) with
      | some ys => if ys.length = len then some (.array t ys) else none
      | none => none
    | _ => none
  | .map kt vt =>
    match o with
    | .map _ _ kvs =>
      (optAll (kvs.map fun p =>
        match fromReflect E kt p.1, fromReflect E vt p.2 with
        | some k, some v => some (k, v)
        | _, _ => none)).map fun l => Obj.map kt vt (bmOfList (E.kcmp kt) l)
    | _ => none
  | .box t => fromReflect E t o
  | .value => some o.toValue.toObj
  | .structValue =>
    if o.kind = .struct then
      let s := dynStruct o.namedIter
      some (Value.struct s.1 s.2).toObj
    else none
  | .tupleStructValue =>
    if o.kind = .tupleStruct then
      some (Value.tupleStruct (o.posIter.map fun x => x.toValue)).toObj
    else none
  | .tupleValue =>
    if o.kind = .tuple then
      some (Value.tuple (o.posIter.map fun x => x.toValue)).toObj
    else none
  | .enumValue =>
    match o.variantKind, o.variantName with
    | some .struct, some vn =>
      let s := dynStruct o.namedIter
      some (Value.enumS vn s.1 s.2).toObj
    | some .tuple, some vn => some (Value.enumT vn (o.posIter.map fun x => x.toValue)).toObj
    | some .unit, some vn => some (Value.enumU vn).toObj
    | _, _ => none
termination_by (sizeOf o, sizeOf t)
decreasing_by
  all_goals first
    | exact Prod.Lex.left _ _ (Obj.field_size _h)
    | exact Prod.Lex.left _ _ (Obj.fieldAt_size _h)
    | (apply Prod.Lex.left
       first
        | (have := sizeOf_fst_lt_of_mem (by assumption); simp_all; omega)
        | (have := sizeOf_snd_lt_of_mem (by assumption); simp_all; omega)
        | (have := List.sizeOf_lt_of_mem (by assumption); simp_all; omega))
    | (apply Prod.Lex.right; simp; try omega)

/-! ## Maps -/

/-- `Map::get` (btree_map.rs:24-28): the key is converted first. -/
def Obj.mapGet (E : Env) (o : Obj) (key : Obj) : Option Obj :=
  match o with
  | .map kt _ kvs => (fromReflect E kt key).bind fun k => bmGet (E.kcmp kt) k kvs
  | _ => none

theorem Obj.mapGet_size {E : Env} {o key x : Obj} (h : o.mapGet E key = some x) :
    sizeOf x < sizeOf o := by
  cases o <;> simp only [Obj.mapGet, reduceCtorEq] at h
  obtain ⟨k, _, h⟩ := Option.bind_eq_some_iff.mp h
  have := sizeOf_lt_of_bmGet h
  simp; omega

/-! ## `patch` -/

/-- `x.patch(&v)`, returning the new content of `x`.

* scalars lib.rs:553-557,625-629; `NonZero*` via_scalar.rs:44-48;
* derived struct struct_named.rs:90-110, `StructValue` struct_.rs:93-101;
* derived tuple struct tuple_struct.rs:89-109, `TupleStructValue` tuple_struct.rs:81-89;
* tuples tuple.rs:181-192, `TupleValue` tuple.rs:103-111;
* derived enum macros enum_.rs:130-220: without `opt_out(Clone)` a value of the same type replaces
  `self`; otherwise a value convertible to the type replaces it; otherwise, if the variant names
  match, field by field;
* `EnumValue` enum_.rs:209-230;
* `Vec` vec.rs:94-102; array array.rs:46-54; map btree_map.rs:101-109;
* `Value` delegates to its content, value.rs:294-296; `Box` boxed.rs:63-65. -/
def patch (E : Env) (x v : Obj) : Obj :=
  match x with
  | .scalar s => if v.isTy (.scalar s.kind) then v else x
  | .nonzero k _ => (fromReflect E (.nonzero k) v).getD x
  | .struct tag fs =>
    if v.kind = .struct then
      .struct tag (fs.map fun p =>
        if p.2.isHidden then p
        else
          match _h : v.field p.1 with
          | none => p
          | some w => (p.1, patch E p.2 w))
    else x
  | .tupleStruct tag fs =>
    if v.kind = .tupleStruct then
      .tupleStruct tag (fs.mapIdx fun i y =>
        if y.isHidden then y
        else
          match _h : v.fieldAt i with
          | none => y
          | some w => patch E y w)
    else x
  | .tuple tag fs =>
    if v.kind = .tuple then
      .tuple tag (fs.mapIdx fun i y =>
        match _h : v.fieldAt i with
        | none => y
        | some w => patch E y w)
    else x
  | .enumS (.derived n) vn fs =>
    if v.isTy (.named n) && !((E.decl n).any (·.cloneOptOut)) then v
    else if v.kind = .enum then
      match fromReflect E (.named n) v with
      | some y => y
      | none =>
        if v.variantName = some vn then
          .enumS (.derived n) vn (fs.map fun p =>
            if p.2.isHidden then p
            else
              match _h : v.field p.1 with
              | none => p
              | some w => (p.1, patch E p.2 w))
        else x
    else x
  | .enumT (.derived n) vn fs =>
    if v.isTy (.named n) && !((E.decl n).any (·.cloneOptOut)) then v
    else if v.kind = .enum then
      match fromReflect E (.named n) v with
      | some y => y
      | none =>
        if v.variantName = some vn then
          .enumT (.derived n) vn (fs.mapIdx fun i y =>
            if y.isHidden then y
            else
              match _h : v.fieldAt i with
              | none => y
              | some w => patch E y w)
        else x
    else x
  | .enumU (.derived n) _ =>
    if v.isTy (.named n) && !((E.decl n).any (·.cloneOptOut)) then v
    else if v.kind = .enum then (fromReflect E (.named n) v).getD x
    else x
  | .enumS (.dyn ns) vn fs =>
    if v.kind = .enum then
      if v.variantName = some vn then
        .enumS (.dyn ns) vn (fs.map fun p =>
          match _h : v.field p.1 with
          | none => p
          | some w => (p.1, patch E p.2 w))
      else (fromReflect E .enumValue v).getD x
    else x
  | .enumT .dyn vn fs =>
    if v.kind = .enum then
      if v.variantName = some vn then
        .enumT .dyn vn (fs.mapIdx fun i y =>
          match _h : v.fieldAt i with
          | none => y
          | some w => patch E y w)
      else (fromReflect E .enumValue v).getD x
    else x
  | .enumU .dyn vn =>
    if v.kind = .enum then
      if v.variantName = some vn then x else (fromReflect E .enumValue v).getD x
    else x
  | .vec t xs =>
    if v.kind = .list then
      .vec t (xs.mapIdx fun i y =>
        match _h : v.fieldAt i with
        | none => y
        | some w => patch E y w)
    else x
  | .array t xs =>
    if v.kind = .array then
      .array t (xs.mapIdx fun i y =>
        match _h : v.fieldAt i with
        | none => y
        | some w => patch E y w)
    else x
  | .map kt vt kvs =>
    match v with
    | .map _ _ new =>
      .map kt vt ((new.map fun p => (fromReflect E kt p.1, fun y => patch E y p.2)).foldl
        (fun m q => match q.1 with | none => m | some k => bmModify (E.kcmp kt) k q.2 m) kvs)
    | _ => x
  | .hidden _ => x
termination_by sizeOf v
decreasing_by
  all_goals first
    | exact Obj.field_size _h
    | exact Obj.fieldAt_size _h
    | (have := sizeOf_snd_lt_of_mem (by assumption); simp_all; omega)

/-! ## `clone_reflect` -/

/-- `x.clone_reflect()`; `none` is a panic of the `unwrap`.

Types with `opt_out(Clone)` (macros attrs.rs:149-164), `Vec` (vec.rs:109-112), arrays (array.rs:61-64)
and maps (btree_map.rs:119-122) go through `to_value` and `from_reflect`; all others use `Clone`
(lib.rs:559-561, tuple.rs:203-205, via_scalar.rs:55-57, struct_.rs:107-109, ...). -/
def cloneReflect (E : Env) (x : Obj) : Option Obj :=
  match x.typeOf with
  | some (.named n) =>
    if (E.decl n).any (·.cloneOptOut) then fromReflect E (.named n) x.toValue.toObj else some x
  | some (.vec t) => fromReflect E (.vec t) x.toValue.toObj
  | some (.array t n) => fromReflect E (.array t n) x.toValue.toObj
  | some (.map k v) => fromReflect E (.map k v) x.toValue.toObj
  | _ => some x

/-! ## `reflect_eq` -/

/-- The loop of `reflect_eq_*`: stop at the first result that is not `Some(true)`. -/
def eqAll : List (Option Bool) → Option Bool
  | [] => some true
  | some true :: r => eqAll r
  | some false :: _ => some false
  | none :: _ => none

/-- `reflect_eq(a, b)` (reflect_eq.rs:9-273). `none` is returned for opaque views only. -/
def reflectEq (E : Env) (a b : Obj) : Option Bool :=
  match a with
  | .hidden _ => none
  | .scalar s =>
    match b.asScalar with
    | some s' => some (s.eqv s')
    | none => if b.kind = .opaque then none else some false
  | .nonzero k n =>
    match b.asScalar with
    | some s' => some (Scalar.eqv (.int k n) s')
    | none => if b.kind = .opaque then none else some false
  | .struct tag fs =>
    if b.kind = .struct then
      if (Obj.struct tag fs).fieldsLen = b.fieldsLen then
        eqAll ((Obj.struct tag fs).namedIter.attach.map fun p =>
          match b.field p.1.1 with
          | none => some false
          | some y => reflectEq E p.1.2 y)
      else some false
    else if b.kind = .opaque then none else some false
  | .enumS tag vn fs =>
    if b.kind = .enum then
      if b.variantName = some vn ∧ (Obj.enumS tag vn fs).fieldsLen = b.fieldsLen then
        if b.variantKind = some .struct then
          eqAll ((Obj.enumS tag vn fs).namedIter.attach.map fun p =>
            match b.field p.1.1 with
            | none => some false
            | some y => reflectEq E p.1.2 y)
        else some false
      else some false
    else if b.kind = .opaque then none else some false
  | .enumT tag vn fs =>
    if b.kind = .enum then
      if b.variantName = some vn ∧ (Obj.enumT tag vn fs).fieldsLen = b.fieldsLen then
        if b.variantKind = some .tuple then
          eqAll (((fs.takeWhile fun x => !x.isHidden).zip b.posIter).attach.map fun p =>
            reflectEq E p.1.1 p.1.2)
        else some false
      else some false
    else if b.kind = .opaque then none else some false
  | .enumU tag vn =>
    if b.kind = .enum then
      if b.variantName = some vn ∧ (Obj.enumU tag vn).fieldsLen = b.fieldsLen then
        some (b.variantKind = some .unit)
      else some false
    else if b.kind = .opaque then none else some false
  | .tupleStruct tag fs =>
    if b.kind = .tupleStruct then
      if (Obj.tupleStruct tag fs).fieldsLen = b.fieldsLen then
        eqAll (((fs.takeWhile fun x => !x.isHidden).zip b.posIter).attach.map fun p =>
          reflectEq E p.1.1 p.1.2)
      else some false
    else if b.kind = .opaque then none else some false
  | .tuple tag fs =>
    if b.kind = .tuple then
      if (Obj.tuple tag fs).fieldsLen = b.fieldsLen then
        eqAll (((fs.takeWhile fun x => !x.isHidden).zip b.posIter).attach.map fun p =>
          reflectEq E p.1.1 p.1.2)
      else some false
    else if b.kind = .opaque then none else some false
  | .vec _ xs =>
    if b.kind = .list then
      if xs.length = b.fieldsLen then
        eqAll ((xs.zip b.posIter).attach.map fun p => reflectEq E p.1.1 p.1.2)
      else some false
    else if b.kind = .opaque then none else some false
  | .array _ xs =>
    if b.kind = .array then
      if xs.length = b.fieldsLen then
        eqAll ((xs.zip b.posIter).attach.map fun p => reflectEq E p.1.1 p.1.2)
      else some false
    else if b.kind = .opaque then none else some false
  | .map _ _ kvs =>
    if b.kind = .map then
      if kvs.length = b.fieldsLen then
        eqAll (kvs.map fun p =>
          match b.mapGet E p.1 with
          | none => some false
          | some y => reflectEq E p.2 y)
      else some false
    else if b.kind = .opaque then none else some false
termination_by sizeOf a
decreasing_by
  all_goals first
    | exact Obj.namedIter_size (by exact p.2)
    | (have := sizeOf_takeWhile_zip (by exact p.2); simp; omega)
    | (have := sizeOf_zip (by exact p.2); simp; omega)
    | (have := sizeOf_snd_lt_of_mem (by assumption); simp_all; omega)

end Mirror
