import Verif.Model.Impl

/-!
# Specification: what can be told about a value through its trait methods

`RefView.Same` says when two values answer alike; `Impl.Equal` and `Impl.Undecided` say, in words about
fields, when a comparison comes out equal and when it meets something opaque first.
-/

namespace Mirror

/-- Two views with the same answers, where the parts they hand out are related. -/
inductive RefView.Same {A B : Type} (R : A → B → Prop) : RefView A → RefView B → Prop
  | scalar (s : Scalar) : RefView.Same R (.scalar s) (.scalar s)
  | struct {len field fieldAt nameAt field' fieldAt'} :
      (∀ n, Option.Rel R (field n) (field' n)) → (∀ i, Option.Rel R (fieldAt i) (fieldAt' i)) →
      RefView.Same R (.struct len field fieldAt nameAt) (.struct len field' fieldAt' nameAt)
  | tupleStruct {len get get'} : (∀ i, Option.Rel R (get i) (get' i)) →
      RefView.Same R (.tupleStruct len get) (.tupleStruct len get')
  | tuple {len get get'} : (∀ i, Option.Rel R (get i) (get' i)) →
      RefView.Same R (.tuple len get) (.tuple len get')
  | enum {v k len field fieldAt nameAt field' fieldAt'} :
      (∀ n, Option.Rel R (field n) (field' n)) → (∀ i, Option.Rel R (fieldAt i) (fieldAt' i)) →
      RefView.Same R (.enum v k len field fieldAt nameAt) (.enum v k len field' fieldAt' nameAt)
  | array {len get get'} : (∀ i, Option.Rel R (get i) (get' i)) →
      RefView.Same R (.array len get) (.array len get')
  | list {len get get'} : (∀ i, Option.Rel R (get i) (get' i)) →
      RefView.Same R (.list len get) (.list len get')
  | map {len get entries get' entries'} :
      (∀ k k', R k k' → Option.Rel R (get k) (get' k')) →
      (∀ i, Option.Rel (fun p q => R p.1 q.1 ∧ R p.2 q.2) (entries i) (entries' i)) →
      RefView.Same R (.map len get entries) (.map len get' entries')
  | opaque : RefView.Same R .opaque .opaque

/-- `R` relates values that no sequence of questions tells apart: they answer alike, with related
parts, and a `Value` is related to itself. -/
structure Impl.Alike {A B : Type} (I : Impl A) (J : Impl B) (R : A → B → Prop) : Prop where
  view : ∀ a b, R a b → RefView.Same R (I.view a) (J.view b)
  ofValue : ∀ v, R (I.ofValue v) (J.ofValue v)

/-- Same kind of container, same number of parts, and for enums the same variant. -/
inductive RefView.SameShape {A : Type} : RefView A → RefView A → Prop
  | struct {len f g h f' g' h'} : RefView.SameShape (.struct len f g h) (.struct len f' g' h')
  | tupleStruct {len g g'} : RefView.SameShape (.tupleStruct len g) (.tupleStruct len g')
  | tuple {len g g'} : RefView.SameShape (.tuple len g) (.tuple len g')
  | enumStruct {v len f g h f' g' h'} :
      RefView.SameShape (.enum v .struct len f g h) (.enum v .struct len f' g' h')
  | enumTuple {v len f g h f' g' h'} :
      RefView.SameShape (.enum v .tuple len f g h) (.enum v .tuple len f' g' h')
  | enumUnit {v len f g h f' g' h'} :
      RefView.SameShape (.enum v .unit len f g h) (.enum v .unit len f' g' h')
  | array {len g g'} : RefView.SameShape (.array len g) (.array len g')
  | list {len g g'} : RefView.SameShape (.list len g) (.list len g')
  | map {len g e g' e'} : RefView.SameShape (.map len g e) (.map len g' e')

/-- `x` is the `i`-th part of the first value and `y` its counterpart in the second: the field of the
same name, the element at the same position, or the value under the same key. -/
inductive RefView.Counterpart {A : Type} : RefView A → RefView A → Nat → A → A → Prop
  | struct {len f g h len' f' g' h' i n x y} : h i = some n → g i = some x → f' n = some y →
      RefView.Counterpart (.struct len f g h) (.struct len' f' g' h') i x y
  | tupleStruct {len g len' g' i x y} : g i = some x → g' i = some y →
      RefView.Counterpart (.tupleStruct len g) (.tupleStruct len' g') i x y
  | tuple {len g len' g' i x y} : g i = some x → g' i = some y →
      RefView.Counterpart (.tuple len g) (.tuple len' g') i x y
  | enumStruct {v len f g h v' len' f' g' h' i n x y} :
      h i = some n → g i = some x → f' n = some y →
      RefView.Counterpart (.enum v .struct len f g h) (.enum v' .struct len' f' g' h') i x y
  | enumTuple {v len f g h v' len' f' g' h' i x y} : g i = some x → g' i = some y →
      RefView.Counterpart (.enum v .tuple len f g h) (.enum v' .tuple len' f' g' h') i x y
  | array {len g len' g' i x y} : g i = some x → g' i = some y →
      RefView.Counterpart (.array len g) (.array len' g') i x y
  | list {len g len' g' i x y} : g i = some x → g' i = some y →
      RefView.Counterpart (.list len g) (.list len' g') i x y
  | map {len g e len' g' e' i k x y} : e i = some (k, x) → g' k = some y →
      RefView.Counterpart (.map len g e) (.map len' g' e') i x y

/-- There is no `i`-th part to compare: the fields have run out, of either value where they are taken
by position. -/
inductive RefView.Over {A : Type} : RefView A → RefView A → Nat → Prop
  | structName {len f g h w i} : h i = none → RefView.Over (.struct len f g h) w i
  | struct {len f g h w i} : g i = none → RefView.Over (.struct len f g h) w i
  | tupleStruct {len g w i} : g i = none → RefView.Over (.tupleStruct len g) w i
  | tupleStruct' {len g w i} : g i = none → RefView.Over w (.tupleStruct len g) i
  | tuple {len g w i} : g i = none → RefView.Over (.tuple len g) w i
  | tuple' {len g w i} : g i = none → RefView.Over w (.tuple len g) i
  | enumName {v len f g h w i} : h i = none → RefView.Over (.enum v .struct len f g h) w i
  | enumStruct {v len f g h w i} : g i = none → RefView.Over (.enum v .struct len f g h) w i
  | enumTuple {v len f g h w i} : g i = none → RefView.Over (.enum v .tuple len f g h) w i
  | enumTuple' {v len f g h w i} : g i = none → RefView.Over w (.enum v .tuple len f g h) i
  | enumUnit {v len f g h w i} : RefView.Over (.enum v .unit len f g h) w i
  | array {len g w i} : g i = none → RefView.Over (.array len g) w i
  | array' {len g w i} : g i = none → RefView.Over w (.array len g) i
  | list {len g w i} : g i = none → RefView.Over (.list len g) w i
  | list' {len g w i} : g i = none → RefView.Over w (.list len g) i
  | map {len g e w i} : e i = none → RefView.Over (.map len g e) w i

/-- Equal as far as the trait methods show: equal scalars, or containers of the same shape whose
parts are equal one by one, up to where they run out. -/
inductive Impl.Equal {A : Type} (I : Impl A) : A → A → Prop
  | scalar {a b s t} : I.view a = .scalar s → I.view b = .scalar t → s.eqv t = true → I.Equal a b
  | parts {a b : A} (m : Nat) (x y : Nat → A) : (I.view a).SameShape (I.view b) →
      (∀ i, i < m → (I.view a).Counterpart (I.view b) i (x i) (y i)) →
      (∀ i, i < m → I.Equal (x i) (y i)) → (I.view a).Over (I.view b) m → I.Equal a b

/-- Something opaque comes before any difference: one of the two is opaque, or they have the same
shape, their parts before the `i`-th are equal, and it is so for the `i`-th. -/
inductive Impl.Undecided {A : Type} (I : Impl A) : A → A → Prop
  | left {a b} : I.view a = .opaque → I.Undecided a b
  | right {a b} : I.view b = .opaque → I.Undecided a b
  | part {a b : A} (m : Nat) (x y : Nat → A) : (I.view a).SameShape (I.view b) →
      (∀ i, i ≤ m → (I.view a).Counterpart (I.view b) i (x i) (y i)) →
      (∀ i, i < m → I.Equal (x i) (y i)) → I.Undecided (x m) (y m) → I.Undecided a b

/-- The `i`-th part of a value. -/
inductive RefView.Part {A : Type} : RefView A → Nat → A → Prop
  | struct {len f g h i x} : g i = some x → RefView.Part (.struct len f g h) i x
  | tupleStruct {len g i x} : g i = some x → RefView.Part (.tupleStruct len g) i x
  | tuple {len g i x} : g i = some x → RefView.Part (.tuple len g) i x
  | enumStruct {v len f g h i x} : g i = some x → RefView.Part (.enum v .struct len f g h) i x
  | enumTuple {v len f g h i x} : g i = some x → RefView.Part (.enum v .tuple len f g h) i x
  | array {len g i x} : g i = some x → RefView.Part (.array len g) i x
  | list {len g i x} : g i = some x → RefView.Part (.list len g) i x
  | map {len g e i k x} : e i = some (k, x) → RefView.Part (.map len g e) i x

/-- The value is opaque, or one of its parts contains something that is. Keys of maps do not count. -/
inductive Impl.ContainsOpaque {A : Type} (I : Impl A) : A → Prop
  | here {a} : I.view a = .opaque → I.ContainsOpaque a
  | part {a x : A} {i : Nat} : (I.view a).Part i x → I.ContainsOpaque x → I.ContainsOpaque a

/-- What somebody who writes an implementation is expected to respect: there is a part, with a name if
it has one, exactly at the positions below the announced number of parts. -/
inductive RefView.Regular {A : Type} : RefView A → Prop
  | scalar {s} : RefView.Regular (.scalar s)
  | struct {len f g h} : (∀ i, (g i).isSome ↔ i < len) → (∀ i, (h i).isSome ↔ i < len) →
      RefView.Regular (.struct len f g h)
  | tupleStruct {len g} : (∀ i, (g i).isSome ↔ i < len) → RefView.Regular (.tupleStruct len g)
  | tuple {len g} : (∀ i, (g i).isSome ↔ i < len) → RefView.Regular (.tuple len g)
  | enumStruct {v len f g h} : (∀ i, (g i).isSome ↔ i < len) → (∀ i, (h i).isSome ↔ i < len) →
      RefView.Regular (.enum v .struct len f g h)
  | enumTuple {v len f g h} : (∀ i, (g i).isSome ↔ i < len) →
      RefView.Regular (.enum v .tuple len f g h)
  | enumUnit {v f g h} : RefView.Regular (.enum v .unit 0 f g h)
  | array {len g} : (∀ i, (g i).isSome ↔ i < len) → RefView.Regular (.array len g)
  | list {len g} : (∀ i, (g i).isSome ↔ i < len) → RefView.Regular (.list len g)
  | map {len g e} : (∀ i, (e i).isSome ↔ i < len) → RefView.Regular (.map len g e)
  | opaque : RefView.Regular .opaque

end Mirror
