import Verif.Model.Containers

/-!
# Panics

`to_value` panics on an enum that holds a variant with `#[reflect(skip)]`. The functions of this file
say which calls panic for that reason; when a call does not panic, its result is the one given by
`Obj.toValue`, `fromReflect`, `patch`, `reflectEq`, ...

An enum's declaration in `Env` lists the variants without `#[reflect(skip)]`. A value in a skipped
variant is an enum object whose variant name is not among them, and all of whose fields are hidden: the
generated accessors have no arm for such a variant (macros enum_.rs:528-574, 624-686, 762-862, 864-924),
only `variant_name` and `variant_kind` do (macros enum_.rs:486-526).
-/

namespace Mirror

/-- The object is a derived enum that currently holds a variant with `#[reflect(skip)]`
(macros enum_.rs:1061-1066: `filter_out_skipped`). -/
def Obj.skippedVariant (E : Env) (o : Obj) : Bool :=
  match o.typeOf, o.variantName with
  | some (.named n), some vn =>
    match E.decl n with
    | some ⟨.enum vds, _⟩ => !(vds.any fun vd => vd.name = vn)
    | _ => false
  | _, _ => false

/-- `o.to_value()` panics: the arm for skipped variants of the derived enum (macros enum_.rs:276-285),
or the conversion of a part does. The dynamic types are cloned (struct_.rs:103-105, tuple.rs:113-115,
enum_.rs:232-234). -/
def toValuePanics (E : Env) : Obj → Bool
  | .struct (.derived _) fs => (fs.map fun p => !p.2.isHidden && toValuePanics E p.2).any id
  | .tupleStruct (.derived _) fs => (fs.map fun x => !x.isHidden && toValuePanics E x).any id
  | .tuple (.typed _) fs => (fs.map fun x => toValuePanics E x).any id
  | .enumS (.derived n) v fs =>
    (Obj.enumS (.derived n) v fs).skippedVariant E ||
      (fs.map fun p => !p.2.isHidden && toValuePanics E p.2).any id
  | .enumT (.derived n) v fs =>
    (Obj.enumT (.derived n) v fs).skippedVariant E ||
      (fs.map fun x => !x.isHidden && toValuePanics E x).any id
  | .enumU (.derived n) v => (Obj.enumU (.derived n) v).skippedVariant E
  | .vec _ xs => (xs.map fun x => toValuePanics E x).any id
  | .array _ xs => (xs.map fun x => toValuePanics E x).any id
  | .map _ _ kvs => (kvs.map fun p => toValuePanics E p.1 || toValuePanics E p.2).any id
  | _ => false

/-- A loop, or the fields of a constructor, evaluated in order: each step panics (first component) or
else succeeds or not (second component), and the first step that does not succeed ends it. -/
def loopPanics : List (Bool × Bool) → Bool
  | [] => false
  | (true, _) :: _ => true
  | (false, true) :: r => loopPanics r
  | (false, false) :: _ => false

/-- `T::from_reflect(&o)` panics: some `to_value` it calls does. The cases are those of `fromReflect`
(`Value` value.rs:64-68; `StructValue` struct_.rs:172-182; `TupleStructValue` tuple_struct.rs:142-152;
`TupleValue` tuple.rs:142-152; `EnumValue` enum_.rs:343-384; fields and elements in order, until one does
not convert). -/
def fromReflectPanics (E : Env) (t : Ty) (o : Obj) : Bool :=
  match t with
  | .scalar _ | .nonzero _ => false
  | .named n =>
    match E.decl n with
    | some ⟨.struct fds, c⟩ =>
      if o.kind = .struct then
        loopPanics (fds.map fun fd =>
          if fd.skip then (false, true)
          else
            match _h : o.field fd.name with
            | none => (false, false)
            | some v =>
              if !c && v.isTy fd.ty then (false, true)
              else (fromReflectPanics E fd.ty v, (fromReflect E fd.ty v).isSome))
      else false
    | some ⟨.tupleStruct fds, c⟩ =>
      if o.kind = .tupleStruct then
        loopPanics (fds.mapIdx fun i fd =>
          if fd.skip then (false, true)
          else
            match _h : o.fieldAt i with
            | none => (false, false)
            | some v =>
              if !c && v.isTy fd.ty then (false, true)
              else (fromReflectPanics E fd.ty v, (fromReflect E fd.ty v).isSome))
      else false
    | some ⟨.enum vds, c⟩ =>
      match o.variantName with
      | none => false
      | some vn =>
        match vds.find? fun vd => vd.name = vn with
        | none => false
        | some (.struct _ fds) =>
          loopPanics (fds.map fun fd =>
            if fd.skip then (false, true)
            else
              match _h : o.field fd.name with
              | none => (false, false)
              | some v =>
                if !c && v.isTy fd.ty then (false, true)
                else (fromReflectPanics E fd.ty v, (fromReflect E fd.ty v).isSome))
        | some (.tuple _ fds) =>
          loopPanics (fds.mapIdx fun i fd =>
            if fd.skip then (false, true)
            else
              match _h : o.fieldAt i with
              | none => (false, false)
              | some v =>
                if !c && v.isTy fd.ty then (false, true)
                else (fromReflectPanics E fd.ty v, (fromReflect E fd.ty v).isSome))
        | some (.unit _) => false
    | none => false
  | .tuple ts =>
    if o.kind = .tuple then
      loopPanics (ts.mapIdx fun i t =>
        match _h : o.fieldAt i with
        | none => (false, false)
        | some v => (fromReflectPanics E t v, (fromReflect E t v).isSome))
    else false
  | .vec t =>
    match o with
    | .vec _ xs => loopPanics (xs.map fun x => (fromReflectPanics E t x, (fromReflect E t x).isSome))
    | _ => false
  | .array t _ =>
    match o with
    | .vec _ xs => loopPanics (xs.map fun x => (fromReflectPanics E t x, (fromReflect E t x).isSome))
    | _ => false
  | .map kt vt =>
    match o with
    | .map _ _ kvs =>
      loopPanics ((kvs.map fun p =>
        [(fromReflectPanics E kt p.1, (fromReflect E kt p.1).isSome),
          (fromReflectPanics E vt p.2, (fromReflect E vt p.2).isSome)]).flatten)
    | _ => false
  | .box t => fromReflectPanics E t o
  | .value => toValuePanics E o
  | .structValue => decide (o.kind = .struct) && o.namedIter.any fun p => toValuePanics E p.2
  | .tupleStructValue => decide (o.kind = .tupleStruct) && o.posIter.any fun x => toValuePanics E x
  | .tupleValue => decide (o.kind = .tuple) && o.posIter.any fun x => toValuePanics E x
  | .enumValue =>
    decide (o.kind = .enum) &&
      (o.namedIter.any (fun p => toValuePanics E p.2) || o.posIter.any fun x => toValuePanics E x)
termination_by (sizeOf o, sizeOf t)
decreasing_by
  all_goals first
    | exact Prod.Lex.left _ _ (Obj.field_size _h)
    | exact Prod.Lex.left _ _ (Obj.fieldAt_size _h)
    | (apply Prod.Lex.left
       first
        | (have := sizeOf_fst_lt_of_mem (by assumption); simp_all; omega)
        | (have := sizeOf_snd_lt_of_mem (by assumption); simp_all; omega)
        | (have := List.sizeOf_lt_of_mem (by assumption); simp_all; omega))
    | (apply Prod.Lex.right; simp; try omega)

/-- `x.patch(&v)` panics. The cases are those of `patch`; fields are patched one after another, and map
entries with the contents left by the previous ones (macros enum_.rs:130-220, enum_.rs:209-230,
btree_map.rs:101-109). -/
def patchPanics (E : Env) (x v : Obj) : Bool :=
  match x with
  | .scalar _ | .nonzero _ _ | .hidden _ => false
  | .struct _ fs =>
    if v.kind = .struct then
      (fs.map fun p =>
        if p.2.isHidden then false
        else
          match _h : v.field p.1 with
          | none => false
          | some w => patchPanics E p.2 w).any id
    else false
  | .tupleStruct _ fs =>
    if v.kind = .tupleStruct then
      (fs.mapIdx fun i y =>
        if y.isHidden then false
        else
          match _h : v.fieldAt i with
          | none => false
          | some w => patchPanics E y w).any id
    else false
  | .tuple _ fs =>
    if v.kind = .tuple then
      (fs.mapIdx fun i y =>
        match _h : v.fieldAt i with
        | none => false
        | some w => patchPanics E y w).any id
    else false
  | .enumS (.derived n) vn fs =>
    if v.isTy (.named n) && !((E.decl n).any (·.cloneOptOut)) then false
    else if v.kind = .enum then
      fromReflectPanics E (.named n) v ||
        ((fromReflect E (.named n) v).isNone && decide (v.variantName = some vn) &&
          (fs.map fun p =>
            if p.2.isHidden then false
            else
              match _h : v.field p.1 with
              | none => false
              | some w => patchPanics E p.2 w).any id)
    else false
  | .enumT (.derived n) vn fs =>
    if v.isTy (.named n) && !((E.decl n).any (·.cloneOptOut)) then false
    else if v.kind = .enum then
      fromReflectPanics E (.named n) v ||
        ((fromReflect E (.named n) v).isNone && decide (v.variantName = some vn) &&
          (fs.mapIdx fun i y =>
            if y.isHidden then false
            else
              match _h : v.fieldAt i with
              | none => false
              | some w => patchPanics E y w).any id)
    else false
  | .enumU (.derived n) _ =>
    if v.isTy (.named n) && !((E.decl n).any (·.cloneOptOut)) then false
    else decide (v.kind = .enum) && fromReflectPanics E (.named n) v
  | .enumS (.dyn _) vn fs =>
    if v.kind = .enum then
      if v.variantName = some vn then
        (fs.map fun p =>
          match _h : v.field p.1 with
          | none => false
          | some w => patchPanics E p.2 w).any id
      else fromReflectPanics E .enumValue v
    else false
  | .enumT .dyn vn fs =>
    if v.kind = .enum then
      if v.variantName = some vn then
        (fs.mapIdx fun i y =>
          match _h : v.fieldAt i with
          | none => false
          | some w => patchPanics E y w).any id
      else fromReflectPanics E .enumValue v
    else false
  | .enumU .dyn vn =>
    if v.kind = .enum then
      if v.variantName = some vn then false else fromReflectPanics E .enumValue v
    else false
  | .vec _ xs =>
    if v.kind = .list then
      (xs.mapIdx fun i y =>
        match _h : v.fieldAt i with
        | none => false
        | some w => patchPanics E y w).any id
    else false
  | .array _ xs =>
    if v.kind = .array then
      (xs.mapIdx fun i y =>
        match _h : v.fieldAt i with
        | none => false
        | some w => patchPanics E y w).any id
    else false
  | .map kt _ kvs =>
    match v with
    | .map _ _ new =>
      ((new.map fun p => (p, fun y => patchPanics E y p.2)).foldl
        (fun s q =>
          match fromReflect E kt q.1.1 with
          | none => (s.1 || fromReflectPanics E kt q.1.1, s.2)
          | some k =>
            (s.1 || fromReflectPanics E kt q.1.1 || (bmGet (E.kcmp kt) k s.2).any q.2,
              bmModify (E.kcmp kt) k (fun y => patch E y q.1.2) s.2)) (false, kvs)).1
    | _ => false
termination_by sizeOf v
decreasing_by
  all_goals first
    | exact Obj.field_size _h
    | exact Obj.fieldAt_size _h
    | (have := sizeOf_snd_lt_of_mem (by assumption); simp_all; omega)

/-- `x.clone_reflect()` panics: `to_value` does, or the `unwrap` (macros attrs.rs:149-164, vec.rs:109-112,
array.rs:61-64, btree_map.rs:119-122). -/
def clonePanics (E : Env) (x : Obj) : Bool :=
  match x.typeOf with
  | some (.named n) =>
    (E.decl n).any (·.cloneOptOut) &&
      (toValuePanics E x || (fromReflect E (.named n) x.toValue.toObj).isNone)
  | some (.vec t) => toValuePanics E x || (fromReflect E (.vec t) x.toValue.toObj).isNone
  | some (.array t n) => toValuePanics E x || (fromReflect E (.array t n) x.toValue.toObj).isNone
  | some (.map k v) => toValuePanics E x || (fromReflect E (.map k v) x.toValue.toObj).isNone
  | _ => false

/-- `Map::get`, `get_mut` and `remove` panic: the conversion of the key does (btree_map.rs:24-47). -/
def Obj.mapGetPanics (E : Env) (o key : Obj) : Bool :=
  match o with
  | .map kt _ _ => fromReflectPanics E kt key
  | _ => false

/-- `Map::insert` panics: a conversion does; the value is converted after the key
(btree_map.rs:36-41). -/
def Obj.mapInsertPanics (E : Env) (o key val : Obj) : Bool :=
  match o with
  | .map kt vt _ =>
    loopPanics [(fromReflectPanics E kt key, (fromReflect E kt key).isSome),
      (fromReflectPanics E vt val, (fromReflect E vt val).isSome)]
  | _ => false

/-- `List::push` panics: the conversion does (vec.rs:23-27). -/
def Obj.listPushPanics (E : Env) (o v : Obj) : Bool :=
  match o with
  | .vec t _ => fromReflectPanics E t v
  | _ => false

/-- `reflect_eq(a, b)` panics: the lookup of a key does; comparison stops at the first difference
(reflect_eq.rs:9-273). -/
def reflectEqPanics (E : Env) (a b : Obj) : Bool :=
  match a with
  | .hidden _ | .scalar _ | .nonzero _ _ | .enumU _ _ => false
  | .struct tag fs =>
    if b.kind = .struct ∧ (Obj.struct tag fs).fieldsLen = b.fieldsLen then
      loopPanics ((Obj.struct tag fs).namedIter.attach.map fun p =>
        match b.field p.1.1 with
        | none => (false, false)
        | some y => (reflectEqPanics E p.1.2 y, decide (reflectEq E p.1.2 y = some true)))
    else false
  | .enumS tag vn fs =>
    if b.variantName = some vn ∧ (Obj.enumS tag vn fs).fieldsLen = b.fieldsLen ∧
        b.variantKind = some .struct then
      loopPanics ((Obj.enumS tag vn fs).namedIter.attach.map fun p =>
        match b.field p.1.1 with
        | none => (false, false)
        | some y => (reflectEqPanics E p.1.2 y, decide (reflectEq E p.1.2 y = some true)))
    else false
  | .enumT tag vn fs =>
    if b.variantName = some vn ∧ (Obj.enumT tag vn fs).fieldsLen = b.fieldsLen ∧
        b.variantKind = some .tuple then
      loopPanics (((fs.takeWhile fun x => !x.isHidden).zip b.posIter).attach.map fun p =>
        (reflectEqPanics E p.1.1 p.1.2, decide (reflectEq E p.1.1 p.1.2 = some true)))
    else false
  | .tupleStruct tag fs =>
    if b.kind = .tupleStruct ∧ (Obj.tupleStruct tag fs).fieldsLen = b.fieldsLen then
      loopPanics (((fs.takeWhile fun x => !x.isHidden).zip b.posIter).attach.map fun p =>
        (reflectEqPanics E p.1.1 p.1.2, decide (reflectEq E p.1.1 p.1.2 = some true)))
    else false
  | .tuple tag fs =>
    if b.kind = .tuple ∧ (Obj.tuple tag fs).fieldsLen = b.fieldsLen then
      loopPanics (((fs.takeWhile fun x => !x.isHidden).zip b.posIter).attach.map fun p =>
        (reflectEqPanics E p.1.1 p.1.2, decide (reflectEq E p.1.1 p.1.2 = some true)))
    else false
  | .vec _ xs =>
    if b.kind = .list ∧ xs.length = b.fieldsLen then
      loopPanics ((xs.zip b.posIter).attach.map fun p =>
        (reflectEqPanics E p.1.1 p.1.2, decide (reflectEq E p.1.1 p.1.2 = some true)))
    else false
  | .array _ xs =>
    if b.kind = .array ∧ xs.length = b.fieldsLen then
      loopPanics ((xs.zip b.posIter).attach.map fun p =>
        (reflectEqPanics E p.1.1 p.1.2, decide (reflectEq E p.1.1 p.1.2 = some true)))
    else false
  | .map _ _ kvs =>
    if b.kind = .map ∧ kvs.length = b.fieldsLen then
      loopPanics (kvs.map fun p =>
        if b.mapGetPanics E p.1 then (true, false)
        else
          match b.mapGet E p.1 with
          | none => (false, false)
          | some y => (reflectEqPanics E p.2 y, decide (reflectEq E p.2 y = some true)))
    else false
termination_by sizeOf a
decreasing_by
  all_goals first
    | exact Obj.namedIter_size (by exact p.2)
    | (have := sizeOf_takeWhile_zip (by exact p.2); simp; omega)
    | (have := sizeOf_zip (by exact p.2); simp; omega)
    | (have := sizeOf_snd_lt_of_mem (by assumption); simp_all; omega)

end Mirror
