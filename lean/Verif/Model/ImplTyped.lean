import Verif.Model.ImplMut
import Verif.Model.Mut

/-!
# `get_at` and `get_at_mut` on values whose `Reflect` implementation somebody wrote by hand

`as_any` and `as_any_mut` are methods of `Reflect` like the others: an implementation need not answer with the value
itself. That of `Value` does not (value.rs:197-203).
-/

namespace Mirror

/-- What `as_any` (lib.rs:384) and `as_any_mut` (lib.rs:386) answer on each value, and the Rust type of each value,
which `Any` knows. What they answer is taken to implement `Reflect` too: no other type can be asked for. -/
structure AnyImpl (A τ : Type) extends MutImpl A where
  asAny : A → A
  asAnyMut : A → Spot A
  ty : A → Option τ

/-- `downcast_ref::<T>()` (lib.rs:512-517). -/
def AnyImpl.downcastRef {A τ : Type} [DecidableEq τ] (M : AnyImpl A τ) (t : τ) (a : A) : Option A :=
  if M.ty (M.asAny a) = some t then some (M.asAny a) else none

/-- `downcast_mut::<T>()` (lib.rs:519-524). -/
def AnyImpl.downcastMut {A τ : Type} [DecidableEq τ] (M : AnyImpl A τ) (t : τ) (a : A) : Option (Spot A) :=
  if M.ty (M.asAnyMut a).get = some t then some (M.asAnyMut a) else none

/-- `get_at::<T>(path)` (key_path.rs:18-23). -/
def AnyImpl.getAt {A τ : Type} [DecidableEq τ] (M : AnyImpl A τ) (t : τ) (a : A) (p : KeyPath) : Option A :=
  match M.at a p with
  | none => none
  | some x => M.downcastRef t x

/-- `get_at_mut::<T>(path)` (key_path.rs:27-32). -/
def AnyImpl.getAtMut {A τ : Type} [DecidableEq τ] (M : AnyImpl A τ) (t : τ) (a : A) (p : KeyPath) : Option (Spot A) :=
  match M.atMut a p with
  | none => none
  | some sp =>
    match M.downcastMut t sp.get with
    | none => none
    | some s => some ⟨s.get, fun z => sp.put (s.put z)⟩

/-- The derived and built-in types, behind references to the values themselves (`trivial_reflect_methods!`,
lib.rs:272-296), not to a `Value` or a `Box` that holds them. -/
def Obj.anyImpl (E : Env) : AnyImpl Obj Ty :=
  { Obj.mutImpl E with asAny := fun o => o, asAnyMut := fun o => ⟨o, fun z => z⟩, ty := Obj.typeOf }


/-! ## `get_field` -/

/-- What a reference to a part gives when it is downcast (`?.downcast_ref()`, `?.downcast_mut()`). -/
def AnyImpl.typedMut {A τ : Type} [DecidableEq τ] (M : AnyImpl A τ) (t : τ) (o : Option (Spot A)) : Option (Spot A) :=
  match o with
  | none => none
  | some sp =>
    match M.downcastMut t sp.get with
    | none => none
    | some s => some ⟨s.get, fun z => sp.put (s.put z)⟩

/-- `get_field::<T>(name)` on a struct or an enum (get_field.rs:172-182, 220-230). On an enum it does not look at the
kind of the variant. -/
def AnyImpl.getNamed {A τ : Type} [DecidableEq τ] (M : AnyImpl A τ) (t : τ) (a : A) (n : String) : Option A :=
  match M.view a with
  | .struct _ field _ _ => (field n).bind (M.downcastRef t)
  | .enum _ _ _ field _ _ => (field n).bind (M.downcastRef t)
  | _ => none

/-- `get_field_mut::<T>(name)` on a struct or an enum (get_field.rs:184-194, 232-242). -/
def AnyImpl.getNamedMut {A τ : Type} [DecidableEq τ] (M : AnyImpl A τ) (t : τ) (a : A) (n : String) : Option (Spot A) :=
  match M.viewMut a with
  | .struct fieldMut => M.typedMut t (fieldMut n)
  | .enum _ _ fieldMut _ => M.typedMut t (fieldMut n)
  | _ => none

/-- `get_field::<T>(index)` on a tuple struct, enum, tuple, array or list (get_field.rs:196-206, 244-254, 268-278,
293-303). -/
def AnyImpl.getIndexed {A τ : Type} [DecidableEq τ] (M : AnyImpl A τ) (t : τ) (a : A) (i : Nat) : Option A :=
  match M.view a with
  | .tupleStruct _ fieldAt => (fieldAt i).bind (M.downcastRef t)
  | .tuple _ fieldAt => (fieldAt i).bind (M.downcastRef t)
  | .enum _ _ _ _ fieldAt _ => (fieldAt i).bind (M.downcastRef t)
  | .array _ get => (get i).bind (M.downcastRef t)
  | .list _ get => (get i).bind (M.downcastRef t)
  | _ => none

/-- `get_field_mut::<T>(index)` on the same (get_field.rs:208-218, 256-266, 280-290, 305-315). -/
def AnyImpl.getIndexedMut {A τ : Type} [DecidableEq τ] (M : AnyImpl A τ) (t : τ) (a : A) (i : Nat) : Option (Spot A) :=
  match M.viewMut a with
  | .tupleStruct fieldAtMut => M.typedMut t (fieldAtMut i)
  | .tuple fieldAtMut => M.typedMut t (fieldAtMut i)
  | .enum _ _ _ fieldAtMut => M.typedMut t (fieldAtMut i)
  | .array getMut => M.typedMut t (getMut i)
  | .list getMut => M.typedMut t (getMut i)
  | _ => none

/-- `get_field::<T>(key)` on a map (get_field.rs:317-328). -/
def AnyImpl.getEntry {A τ : Type} [DecidableEq τ] (M : AnyImpl A τ) (t : τ) (a k : A) : Option A :=
  match M.view a with
  | .map _ get _ => (get k).bind (M.downcastRef t)
  | _ => none

/-- `get_field_mut::<T>(key)` on a map (get_field.rs:330-341). -/
def AnyImpl.getEntryMut {A τ : Type} [DecidableEq τ] (M : AnyImpl A τ) (t : τ) (a k : A) : Option (Spot A) :=
  match M.viewMut a with
  | .map getMut => M.typedMut t (getMut k)
  | _ => none

end Mirror
