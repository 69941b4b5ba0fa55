import Verif.Model.ImplFrom

/-!
# `patch` with values whose `Reflect` implementation somebody wrote by hand

The value that is patched is of a derived or built-in type; the patch is known through its trait methods
only (`Model/ImplFrom`).
-/

namespace Mirror

/-- The fields of a struct or struct variant, each patched with the field of its name (struct_named.rs:94-100,
macros enum_.rs:137-147, struct_.rs:95-99, enum_.rs:212-218): skipped ones are left alone. `none` if one of
them needs more steps; the order does not matter then. -/
def patchNamedA {A : Type} (pat : Obj → A → Option Obj) (field : String → Option A)
    (fs : List (String × Obj)) : Option (List (String × Obj)) :=
  optAll (fs.map fun p =>
    if p.2.isHidden then some p
    else
      match field p.1 with
      | none => some p
      | some w => (pat p.2 w).map fun y => (p.1, y))

/-- The fields of a tuple struct, tuple or tuple variant, each patched with the one at its position (macros
tuple_struct.rs:92-100, macros enum_.rs:157-168, tuple_struct.rs:83-87, tuple.rs:105-109, 183-191,
enum_.rs:219-223). -/
def patchPosA {A : Type} (pat : Obj → A → Option Obj) (fieldAt : Nat → Option A) (fs : List Obj) :
    Option (List Obj) :=
  optAll (fs.mapIdx fun i y =>
    if y.isHidden then some y
    else
      match fieldAt i with
      | none => some y
      | some w => pat y w)

/-- The loop over the elements of the patch, from position `i` on (vec.rs:96-100, array.rs:48-52), in so
many turns. It goes on beyond the end of the patched list. -/
def patchLoop {A : Type} (pat : Obj → A → Option Obj) (get : Nat → Option A) :
    Nat → Nat → List Obj → Option (List Obj)
  | 0, _, _ => none
  | f + 1, i, xs =>
    match get i with
    | none => some xs
    | some w =>
      match xs[i]? with
      | none => patchLoop pat get f (i + 1) xs
      | some y => (pat y w).bind fun y' => patchLoop pat get f (i + 1) (xs.set i y')

/-- The loop over the entries of the patch, from turn `i` on (btree_map.rs:103-107; `get_mut`
btree_map.rs:30-34), in so many turns. -/
def patchMapLoop {A : Type} (cmp : Obj → Obj → Ordering) (conv : A → Option (Option Obj))
    (pat : Obj → A → Option Obj) (entries : Nat → Option (A × A)) :
    Nat → Nat → List (Obj × Obj) → Option (List (Obj × Obj))
  | 0, _, _ => none
  | f + 1, i, m =>
    match entries i with
    | none => some m
    | some (k, w) =>
      match conv k with
      | none => none
      | some none => patchMapLoop cmp conv pat entries f (i + 1) m
      | some (some k) =>
        match bmGet cmp k m with
        | none => patchMapLoop cmp conv pat entries f (i + 1) m
        | some y =>
          (pat y w).bind fun y' =>
            patchMapLoop cmp conv pat entries f (i + 1) (bmModify cmp k (fun _ => y') m)

/-- The `match` on `self` of a patched derived enum whose patch does not convert, and of a patched
`EnumValue` (macros enum_.rs:136-180, enum_.rs:211-225). -/
def patchVariantA {A : Type} (pat : Obj → A → Option Obj) (field : String → Option A)
    (fieldAt : Nat → Option A) : Obj → Option Obj
  | .enumS tag vn fs => (patchNamedA pat field fs).map (.enumS tag vn)
  | .enumT tag vn fs => (patchPosA pat fieldAt fs).map (.enumT tag vn)
  | x => some x

/-- `x.patch(&a)`, the new content of `x`, in so many steps (the code is cited at `patch`, case by case). -/
def SrcImpl.patch {A : Type} (S : SrcImpl A) (E : Env) : Nat → Obj → A → Option Obj
  | 0, _, _ => none
  | f + 1, x, a =>
    match x with
    | .scalar s => some ((S.down a (.scalar s.kind)).getD x)
    | .nonzero k _ => (S.from E f (.nonzero k) a).map (·.getD x)
    | .struct tag fs =>
      match S.view a with
      | .struct _ field _ _ => (patchNamedA (S.patch E f) field fs).map (.struct tag)
      | _ => some x
    | .tupleStruct tag fs =>
      match S.view a with
      | .tupleStruct _ fieldAt => (patchPosA (S.patch E f) fieldAt fs).map (.tupleStruct tag)
      | _ => some x
    | .tuple tag fs =>
      match S.view a with
      | .tuple _ fieldAt => (patchPosA (S.patch E f) fieldAt fs).map (.tuple tag)
      | _ => some x
    | .vec t xs =>
      match S.view a with
      | .list _ get => (patchLoop (S.patch E f) get f 0 xs).map (.vec t)
      | _ => some x
    | .array t xs =>
      match S.view a with
      | .array _ get => (patchLoop (S.patch E f) get f 0 xs).map (.array t)
      | _ => some x
    | .map kt vt kvs =>
      match S.view a with
      | .map _ _ entries =>
        (patchMapLoop (E.kcmp kt) (S.from E f kt) (S.patch E f) entries f 0 kvs).map (.map kt vt)
      | _ => some x
    | .hidden _ => some x
    | x =>
      match x.typeOf with
      | some (.named n) =>
        match if (E.decl n).any (·.cloneOptOut) then none else S.down a (.named n) with
        | some y => some y
        | none =>
          match S.view a with
          | .enum v _ _ field fieldAt _ =>
            match S.from E f (.named n) a with
            | none => none
            | some (some y) => some y
            | some none =>
              if x.variantName = some v then patchVariantA (S.patch E f) field fieldAt x else some x
          | _ => some x
      | _ =>
        match S.view a with
        | .enum v _ _ field fieldAt _ =>
          if x.variantName = some v then patchVariantA (S.patch E f) field fieldAt x
          else (S.from E f .enumValue a).map (·.getD x)
        | _ => some x

end Mirror
