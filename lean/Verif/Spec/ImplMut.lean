import Verif.Model.ImplMut

/-!
# Specification: implementations whose mutable access does what it says

`MutImpl.Lawful` is what a hand-written implementation has to get right, part by part. `PathsApart` says when
two paths go separate ways.
-/

namespace Mirror

/-- What a value shows itself as, without its parts. -/
inductive Form
  | struct | tupleStruct | tuple | enum (variant : String) (kind : VKind) | array | list | map | leaf
  deriving DecidableEq

def RefView.form {A : Type} : RefView A → Form
  | .scalar _ => .leaf
  | .struct .. => .struct
  | .tupleStruct .. => .tupleStruct
  | .tuple .. => .tuple
  | .enum v k _ _ _ _ => .enum v k
  | .array .. => .array
  | .list .. => .list
  | .map .. => .map
  | .opaque => .leaf

def MutView.form {A : Type} : MutView A → Form
  | .struct .. => .struct
  | .tupleStruct .. => .tupleStruct
  | .tuple .. => .tuple
  | .enum v k _ _ => .enum v k
  | .array .. => .array
  | .list .. => .list
  | .map .. => .map
  | .leaf => .leaf

/-- How a part is asked for: by the name of a field, the position of a field, the index of an element, or
the key of an entry. -/
inductive Handle (A : Type)
  | field (n : String)
  | pos (i : Nat)
  | index (i : Nat)
  | key (k : A)

/-- The part asked for. -/
def RefView.part {A : Type} : RefView A → Handle A → Option A
  | .struct _ field _ _, .field n => field n
  | .enum _ .struct _ field _ _, .field n => field n
  | .tupleStruct _ fieldAt, .pos i => fieldAt i
  | .tuple _ fieldAt, .pos i => fieldAt i
  | .enum _ .tuple _ _ fieldAt _, .pos i => fieldAt i
  | .array _ get, .index i => get i
  | .list _ get, .index i => get i
  | .map _ get _, .key k => get k
  | _, _ => none

/-- The mutable reference to the part asked for. -/
def MutView.spot {A : Type} : MutView A → Handle A → Option (Spot A)
  | .struct fieldMut, .field n => fieldMut n
  | .enum _ .struct fieldMut _, .field n => fieldMut n
  | .tupleStruct fieldAtMut, .pos i => fieldAtMut i
  | .tuple fieldAtMut, .pos i => fieldAtMut i
  | .enum _ .tuple _ fieldAtMut, .pos i => fieldAtMut i
  | .array getMut, .index i => getMut i
  | .list getMut, .index i => getMut i
  | .map getMut, .key k => getMut k
  | _, _ => none

/-- Two different fields, elements or keys, where `K` says which keys are the same. -/
inductive Handle.Apart {A : Type} (K : A → A → Prop) : Handle A → Handle A → Prop
  | field {n m} : n ≠ m → Handle.Apart K (.field n) (.field m)
  | pos {i j} : i ≠ j → Handle.Apart K (.pos i) (.pos j)
  | index {i j} : i ≠ j → Handle.Apart K (.index i) (.index j)
  | key {k l} : ¬ K k l → Handle.Apart K (.key k) (.key l)

/-- The methods for mutable access find what the methods for shared access find, and what is written there,
and nothing else, is what they find afterwards. `R` says which values a value may be overwritten with
(those of its type). -/
structure MutImpl.Lawful {A : Type} (M : MutImpl A) (R K : A → A → Prop) : Prop where
  form : ∀ a, (M.viewMut a).form = (M.view a).form
  same : ∀ a h, ((M.viewMut a).spot h).map (·.get) = (M.view a).part h
  back : ∀ a h sp, (M.viewMut a).spot h = some sp → sp.put sp.get = a
  write : ∀ a h sp z, (M.viewMut a).spot h = some sp → R sp.get z →
    R a (sp.put z) ∧ (M.view (sp.put z)).form = (M.view a).form ∧
      (M.view (sp.put z)).part h = some z ∧
      ∀ h', Handle.Apart K h h' → (M.view (sp.put z)).part h' = (M.view a).part h'

/-- Keys of paths that lead to different parts of a value of that form. -/
inductive KeyApart {A : Type} (I : Impl A) (K : A → A → Prop) : Form → Key → Key → Prop
  | named {f n m} : n ≠ m → KeyApart I K f (.named n) (.named m)
  | numbered {f i j} : i ≠ j → KeyApart I K f (.numbered i) (.numbered j)
  | index {f v w} : f ≠ .map → (∀ i, valueToUsize v = some i → valueToUsize w ≠ some i) →
      KeyApart I K f (.get v) (.get w)
  | key {v w} : ¬ K (I.ofValue v) (I.ofValue w) → KeyApart I K .map (.get v) (.get w)

/-- The two paths lead from `a` to different parts of a value they have in common. `::Variant` keys, which
lead to the enum itself, may stand in between. -/
inductive PathsApart {A : Type} (I : Impl A) (K : A → A → Prop) : A → KeyPath → KeyPath → Prop
  | here {a k k' p q} : KeyApart I K (I.view a).form k k' → PathsApart I K a (k :: p) (k' :: q)
  | next {a x k p q} : (∀ v, k ≠ .variant v) → I.atKey a k = some x → PathsApart I K x p q →
      PathsApart I K a (k :: p) (k :: q)
  | left {a v p q} : PathsApart I K a p q → PathsApart I K a (.variant v :: p) q
  | right {a v p q} : PathsApart I K a p q → PathsApart I K a p (.variant v :: q)

/-- Two keys of maps of derived or built-in types that may find the same entry: in some map type, both
are converted to keys that compare equal to a stored one. -/
def MayMeet (E : Env) (k l : Obj) : Prop :=
  ∃ kt a b x, fromReflect E kt k = some a ∧ fromReflect E kt l = some b ∧
    E.kcmp kt a x = .eq ∧ E.kcmp kt b x = .eq


/-- From `a`, values are written through `at_mut` one after the other, each of which may stand where it is
written and goes another way than `p`; `b` is what is there in the end. -/
inductive WritesApart {A : Type} (M : MutImpl A) (R K : A → A → Prop) (p : KeyPath) :
    A → List (KeyPath × A) → A → Prop
  | nil {a} : WritesApart M R K p a [] a
  | cons {a b q z sp l} : M.atMut a q = some sp → R sp.get z → PathsApart M.toImpl K a q p →
      WritesApart M R K p (sp.put z) l b → WritesApart M R K p a ((q, z) :: l) b


end Mirror
