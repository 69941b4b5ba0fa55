import Verif.Model.Reflect

/-!
# `#[reflect(from_reflect_with(f))]`

`FromReflect` of a derived type with user functions on some of its fields. `fromReflect` in
`Model/Reflect.lean` is the same code for types that have none (proved: `C63_conservative`).
-/

namespace Mirror

/-- The functions named by `from_reflect_with` attributes: for a derived type, a variant of it if it is
an enum, and the index of a field in its declaration. macros attrs.rs:275-277,341-345,
enum_.rs:1043-1058.

A user function is any function of the value it gets; it is assumed to return (no panic, no state). -/
abbrev WithFns := String → Option String → Nat → Option (Obj → Option Obj)

/-- `T::from_reflect(&o)` where fields may carry `from_reflect_with`.

* derived struct macros struct_named.rs:196-238, derived tuple struct macros tuple_struct.rs:197-237, enum
  macros enum_.rs:361-448. Per field, in this order: a skipped field gets its default; a field with a
  function gets what the function makes of the source's field; the rest is as in `fromReflect`.
* all other types as in `fromReflect`.

Simplification: in tuple structs the macro forgets the comma after a field with a function
(macros tuple_struct.rs:209-215), so such a type only compiles if that field is the last one. -/
def fromReflectW (E : Env) (W : WithFns) (t : Ty) (o : Obj) : Option Obj :=
  match t with
  | .scalar k => if o.isTy (.scalar k) then some o else none
  | .nonzero k =>
    if o.isTy (.nonzero k) then some o
    else
      match o with
      | .scalar (.int k' n) => if k' = k ∧ n ≠ 0 then some (.nonzero k n) else none
      | _ => none
  | .named n =>
    match E.decl n with
    | some ⟨.struct fds, c⟩ =>
      if o.kind = .struct then
        (optAll (fds.mapIdx fun i fd =>
          if fd.skip then some (fd.name, Obj.hidden 0)
          else
            match _h : o.field fd.name with
            | none => none
            | some v =>
              match W n none i with
              | some f => (f v).map fun y => (fd.name, y)
              | none =>
                if !c && v.isTy fd.ty then some (fd.name, v)
                else (fromReflectW E W fd.ty v).map fun y => (fd.name, y))).map
          (Obj.struct (.derived n))
      else none
    | some ⟨.tupleStruct fds, c⟩ =>
      if o.kind = .tupleStruct then
        (optAll (fds.mapIdx fun i fd =>
          if fd.skip then some (Obj.hidden 0)
          else
            match _h : o.fieldAt i with
            | none => none
            | some v =>
              match W n none i with
              | some f => f v
              | none => if !c && v.isTy fd.ty then some v else fromReflectW E W fd.ty v)).map
          (Obj.tupleStruct (.derived n))
      else none
    | some ⟨.enum vds, c⟩ =>
      match o.variantName with
      | none => none
      | some vn =>
        match vds.find? fun vd => vd.name = vn with
        | none => none
        | some (.struct vn fds) =>
          (optAll (fds.mapIdx fun i fd =>
            if fd.skip then some (fd.name, Obj.hidden 0)
            else
              match _h : o.field fd.name with
              | none => none
              | some v =>
                match W n (some vn) i with
                | some f => (f v).map fun y => (fd.name, y)
                | none =>
                  if !c && v.isTy fd.ty then some (fd.name, v)
                  else (fromReflectW E W fd.ty v).map fun y => (fd.name, y))).map
            (Obj.enumS (.derived n) vn)
        | some (.tuple vn fds) =>
          (optAll (fds.mapIdx fun i fd =>
            if fd.skip then some (Obj.hidden 0)
            else
              match _h : o.fieldAt i with
              | none => none
              | some v =>
                match W n (some vn) i with
                | some f => f v
                | none => if !c && v.isTy fd.ty then some v else fromReflectW E W fd.ty v)).map
            (Obj.enumT (.derived n) vn)
        | some (.unit vn) => some (.enumU (.derived n) vn)
    | none => none
  | .tuple ts =>
    if o.kind = .tuple then
      (optAll (ts.mapIdx fun i t =>
        match _h : o.fieldAt i with
        | none => none
        | some v => fromReflectW E W t v)).map (Obj.tuple (.typed ts))
    else none
  | .vec t =>
    match o with
    | .vec _ xs => (optAll (xs.map fun x => fromReflectW E W t x)).map (Obj.vec t)
    | _ => none
  | .array t len =>
    match o with
    | .vec _ xs =>
      match optAll (xs.map fun x => fromReflectW E W t x) with
      | some ys => if ys.length = len then some (.array t ys) else none
      | none => none
    | _ => none
  | .map kt vt =>
    match o with
    | .map _ _ kvs =>
      (optAll (kvs.map fun p =>
        match fromReflectW E W kt p.1, fromReflectW E W vt p.2 with
        | some k, some v => some (k, v)
        | _, _ => none)).map fun l => Obj.map kt vt (bmOfList (E.kcmp kt) l)
    | _ => none
  | .box t => fromReflectW E W t o
  | .value => some o.toValue.toObj
  | .structValue =>
    if o.kind = .struct then
      let s := dynStruct o.namedIter
      some (Value.struct s.1 s.2).toObj
    else none
  | .tupleStructValue =>
    if o.kind = .tupleStruct then
      some (Value.tupleStruct (o.posIter.map fun x => x.toValue)).toObj
    else none
  | .tupleValue =>
    if o.kind = .tuple then
      some (Value.tuple (o.posIter.map fun x => x.toValue)).toObj
    else none
  | .enumValue =>
    match o.variantKind, o.variantName with
    | some .struct, some vn =>
      let s := dynStruct o.namedIter
      some (Value.enumS vn s.1 s.2).toObj
    | some .tuple, some vn => some (Value.enumT vn (o.posIter.map fun x => x.toValue)).toObj
    | some .unit, some vn => some (Value.enumU vn).toObj
    | _, _ => none
termination_by (sizeOf o, sizeOf t)
decreasing_by
  all_goals first
    | exact Prod.Lex.left _ _ (Obj.field_size _h)
    | exact Prod.Lex.left _ _ (Obj.fieldAt_size _h)
    | (apply Prod.Lex.left
       first
        | (have := sizeOf_fst_lt_of_mem (by assumption); simp_all; omega)
        | (have := sizeOf_snd_lt_of_mem (by assumption); simp_all; omega)
        | (have := List.sizeOf_lt_of_mem (by assumption); simp_all; omega))
    | (apply Prod.Lex.right; simp; try omega)

end Mirror
