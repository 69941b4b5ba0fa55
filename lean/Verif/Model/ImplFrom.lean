import Verif.Model.Impl

/-!
# `from_reflect` of values whose `Reflect` implementation somebody wrote by hand

As in `Model/Impl`: the source is known through its trait methods only. The target is a derived or
built-in type.
-/

namespace Mirror

/-- What `from_reflect` asks of its source beside `reflect_ref`: `as_any` (lib.rs:384), that is, which
value of a modelled type it downcasts to if any, and `to_value` (lib.rs:400). -/
structure SrcImpl (A : Type) extends Impl A where
  any : A → Option Obj
  toValue : A → Value

/-- The implementation of the types modelled by `Obj` (cited at `Model/Obj` and `Model/Reflect`). -/
def Obj.src (E : Env) : SrcImpl Obj := { Obj.impl E with any := some, toValue := Obj.toValue }

/-- `downcast_ref::<T>()` (lib.rs:511-525). -/
def SrcImpl.down {A : Type} (S : SrcImpl A) (a : A) (t : Ty) : Option Obj :=
  match S.any a with
  | some o => if o.isTy t then some o else none
  | none => none

/-- The fields of a constructor expression, each with a `?`, in order: the first that is missing
decides; `none` if one before that needs more steps (struct_named.rs:237-243, macros
tuple_struct.rs:236-242, macros enum_.rs:402-405, 445-447, tuple.rs:280-282). -/
def seqAll {α : Type} : List (Option (Option α)) → Option (Option (List α))
  | [] => some (some [])
  | none :: _ => none
  | some none :: _ => some none
  | some (some x) :: r => (seqAll r).map (·.map (x :: ·))

/-- A loop that pushes one result per item until the iterator ends or a result is missing
(vec.rs:137-141, btree_map.rs:136-140), in so many turns. -/
def collectLoop {α : Type} (item : Nat → Option (Option (Option α))) :
    Nat → Nat → Option (Option (List α))
  | 0, _ => none
  | f + 1, i =>
    match item i with
    | none => some (some [])
    | some none => none
    | some (some none) => some none
    | some (some (some x)) => (collectLoop item f (i + 1)).map (·.map (x :: ·))

/-- The named pairs `fields()` yields (struct_.rs:213-222, enum_.rs:401-406). -/
def namedItem {A : Type} (nameAt : Nat → Option String) (fieldAt : Nat → Option A) (i : Nat) :
    Option (String × A) :=
  match nameAt i with
  | none => none
  | some n =>
    match fieldAt i with
    | none => none
    | some x => some (n, x)

/-- One field in derived code (struct_named.rs:216-231, macros tuple_struct.rs:217-230, macros
enum_.rs:380-395, 424-437): without `opt_out(Clone)` a value of the field's type is cloned. -/
def SrcImpl.fieldFrom {A : Type} (S : SrcImpl A) (conv : Ty → A → Option (Option Obj)) (c : Bool)
    (t : Ty) (v : A) : Option (Option Obj) :=
  if c then conv t v
  else
    match S.down v t with
    | some o => some (some o)
    | none => conv t v

/-- The named fields of derived code (struct_named.rs:196-243, macros enum_.rs:362-404). -/
def SrcImpl.namedFields {A : Type} (S : SrcImpl A) (conv : Ty → A → Option (Option Obj)) (c : Bool)
    (field : String → Option A) (fds : List FieldDef) : Option (Option (List (String × Obj))) :=
  seqAll (fds.map fun fd =>
    if fd.skip then some (some (fd.name, Obj.hidden 0))
    else
      match field fd.name with
      | none => some none
      | some v => (S.fieldFrom conv c fd.ty v).map (·.map fun y => (fd.name, y)))

/-- The numbered fields of derived code (macros tuple_struct.rs:196-242, macros enum_.rs:407-448). -/
def SrcImpl.posFields {A : Type} (S : SrcImpl A) (conv : Ty → A → Option (Option Obj)) (c : Bool)
    (fieldAt : Nat → Option A) (fds : List FieldDef) : Option (Option (List Obj)) :=
  seqAll (fds.mapIdx fun i fd =>
    if fd.skip then some (some (Obj.hidden 0))
    else
      match fieldAt i with
      | none => some none
      | some v => S.fieldFrom conv c fd.ty v)

/-- `Vec::<T>::from_reflect` on a list (vec.rs:135-142). -/
def listFrom {A : Type} (conv : A → Option (Option Obj)) (get : Nat → Option A) (f : Nat) :
    Option (Option (List Obj)) :=
  collectLoop (fun i => (get i).map conv) f 0

/-- `BTreeMap::from_reflect` on a map (btree_map.rs:134-141), before the entries are inserted. -/
def entriesFrom {A : Type} (ck cv : A → Option (Option Obj)) (entries : Nat → Option (A × A))
    (f : Nat) : Option (Option (List (Obj × Obj))) :=
  collectLoop (fun i => (entries i).map fun p =>
    match ck p.1 with
    | none => none
    | some none => some none
    | some (some k) => (cv p.2).map (·.map fun v => (k, v))) f 0

/-- `T::from_reflect(&a)` for `T` given by a type expression, in so many steps (the code is cited at
`fromReflect`, case by case). -/
def SrcImpl.from {A : Type} (S : SrcImpl A) (E : Env) : Nat → Ty → A → Option (Option Obj)
  | 0, _, _ => none
  | f + 1, t, a =>
    match t with
    | .scalar k => some (S.down a (.scalar k))
    | .nonzero k =>
      match S.down a (.nonzero k) with
      | some o => some (some o)
      | none =>
        match S.down a (.scalar (.int k)) with
        | some (.scalar (.int _ n)) => some (if n ≠ 0 then some (.nonzero k n) else none)
        | _ => some none
    | .named n =>
      match E.decl n with
      | some ⟨.struct fds, c⟩ =>
        match S.view a with
        | .struct _ field _ _ =>
          (S.namedFields (S.from E f) c field fds).map (·.map (Obj.struct (.derived n)))
        | _ => some none
      | some ⟨.tupleStruct fds, c⟩ =>
        match S.view a with
        | .tupleStruct _ fieldAt =>
          (S.posFields (S.from E f) c fieldAt fds).map (·.map (Obj.tupleStruct (.derived n)))
        | _ => some none
      | some ⟨.enum vds, c⟩ =>
        match S.view a with
        | .enum vn _ _ field fieldAt _ =>
          match vds.find? fun vd => vd.name = vn with
          | none => some none
          | some (.struct vn fds) =>
            (S.namedFields (S.from E f) c field fds).map (·.map (Obj.enumS (.derived n) vn))
          | some (.tuple vn fds) =>
            (S.posFields (S.from E f) c fieldAt fds).map (·.map (Obj.enumT (.derived n) vn))
          | some (.unit vn) => some (some (.enumU (.derived n) vn))
        | _ => some none
      | none => some none
    | .tuple ts =>
      match S.view a with
      | .tuple _ fieldAt =>
        (seqAll (ts.mapIdx fun i t =>
          match fieldAt i with
          | none => some none
          | some v => S.from E f t v)).map (·.map (Obj.tuple (.typed ts)))
      | _ => some none
    | .vec t =>
      match S.view a with
      | .list _ get => (listFrom (S.from E f t) get f).map (·.map (Obj.vec t))
      | _ => some none
    | .array t len =>
      match S.view a with
      | .list _ get =>
        (listFrom (S.from E f t) get f).map fun r =>
          match r with
          | some ys => if ys.length = len then some (.array t ys) else none
          | none => none
      | _ => some none
    | .map kt vt =>
      match S.view a with
      | .map _ _ entries =>
        (entriesFrom (S.from E f kt) (S.from E f vt) entries f).map
          (·.map fun l => Obj.map kt vt (bmOfList (E.kcmp kt) l))
      | _ => some none
    | .box t => S.from E f t a
    | .value => some (some (S.toValue a).toObj)
    | .structValue =>
      match S.view a with
      | .struct _ _ fieldAt nameAt =>
        (collectLoop (fun i => (namedItem nameAt fieldAt i).map fun p => some (some p)) f 0).map
          (·.map fun l =>
            let s := svOfList (l.map fun p => (p.1, S.toValue p.2))
            (Value.struct s.1 s.2).toObj)
      | _ => some none
    | .tupleStructValue =>
      match S.view a with
      | .tupleStruct _ fieldAt =>
        (collectLoop (fun i => (fieldAt i).map fun p => some (some p)) f 0).map
          (·.map fun l => (Value.tupleStruct (l.map S.toValue)).toObj)
      | _ => some none
    | .tupleValue =>
      match S.view a with
      | .tuple _ fieldAt =>
        (collectLoop (fun i => (fieldAt i).map fun p => some (some p)) f 0).map
          (·.map fun l => (Value.tuple (l.map S.toValue)).toObj)
      | _ => some none
    | .enumValue =>
      match S.view a with
      | .enum vn .struct _ _ fieldAt nameAt =>
        (collectLoop (fun i => (namedItem nameAt fieldAt i).map fun p => some (some p)) f 0).map
          (·.map fun l =>
            let s := svOfList (l.map fun p => (p.1, S.toValue p.2))
            (Value.enumS vn s.1 s.2).toObj)
      | .enum vn .tuple _ _ fieldAt _ =>
        (collectLoop (fun i => (fieldAt i).map fun p => some (some p)) f 0).map
          (·.map fun l => (Value.enumT vn (l.map S.toValue)).toObj)
      | .enum vn .unit _ _ _ _ => some (some (Value.enumU vn).toObj)
      | _ => some none

end Mirror
