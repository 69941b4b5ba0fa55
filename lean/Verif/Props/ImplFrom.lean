import Verif.Lemmas.ImplFrom
import Verif.Props.Impl

/-!
# C99: `from_reflect` of values whose `Reflect` implementation somebody wrote by hand

`from_reflect` depends on its source only through `reflect_ref`, `as_any` and `to_value`. What it does
is said here for every implementation of those; the derived and built-in types are one of them.
-/

namespace Mirror

/-! ## A program with hand-written types -/

/-- `Hand` as a source: a hand-written value downcasts to no derived or built-in type. -/
def Hand.src (E : Env) : SrcImpl Hand :=
  { Hand.impl E with
    any := fun
      | .obj o => some o
      | _ => none
    toValue := fun
      | .obj o => o.toValue
      | .point x y =>
        .struct ["x", "y"] [("x", .scalar (.int .i32 x)), ("y", .scalar (.int .i32 y))]
      | .locked l => .struct ["label"] [("label", .scalar (.int .i32 l))]
      | .secret => .struct [] [] }

/-- Derived and built-in values of the program cannot be told from themselves. -/
theorem Hand.src_alike (E : Env) : (Hand.src E).Alike (Obj.src E) fun h o => h = .obj o := by
  refine ⟨?_, fun a b h => by rw [h]; rfl, fun a b h => by rw [h]; rfl⟩
  intro h o ho
  subst ho
  have rel : ∀ q : Option Obj, Option.Rel (fun (h : Hand) o => h = .obj o) (q.map .obj) q := by
    intro q
    cases q with
    | none => exact .none
    | some x => exact .some rfl
  show RefView.Same _ ((o.view E).through .obj Hand.as) (o.view E)
  cases o.view E with
  | scalar s => exact .scalar s
  | struct len f g n => exact .struct (fun n => rel _) fun i => rel _
  | tupleStruct len g => exact .tupleStruct fun i => rel _
  | tuple len g => exact .tuple fun i => rel _
  | enum v k len f g n => exact .enum (fun n => rel _) fun i => rel _
  | array len g => exact .array fun i => rel _
  | list len g => exact .list fun i => rel _
  | map len g e =>
    refine .map (fun k k' hk => ?_) fun i => ?_
    · rw [hk]; exact rel _
    · cases e i with
      | none => exact .none
      | some p => exact .some ⟨rfl, rfl⟩
  | «opaque» => exact .opaque

/-- A hand-written `Point` looks like the derived one. -/
theorem Hand.point_looks (E : Env) (x y : Int) :
    (Hand.src E).Looks (Obj.src E) (fun h o => h = .obj o) (.point x y)
      (.struct (.derived "Point") [("x", i32Obj x), ("y", i32Obj y)]) := by
  refine ⟨?_, ?_, fun k => rfl, fun k => rfl⟩
  · have hn : (Obj.struct (.derived "Point") [("x", i32Obj x), ("y", i32Obj y)]).nameAt =
        fun i => (["x", "y"] : List String)[i]? := by
      funext i
      rcases i with _ | _ | i <;> simp [Obj.nameAt, visFields, i32Obj, Obj.isHidden]
    show RefView.Same _ (Hand.view E (.point x y))
      (.struct 2 (Obj.field _) (Obj.fieldAt _) (Obj.nameAt _))
    rw [hn]
    refine .struct (fun n => ?_) fun i => ?_
    · simp only [Obj.field, visFields, i32Obj, Obj.isHidden, List.filter, lookup, Bool.not_false]
      by_cases h1 : n = "x"
      · subst h1; exact .some rfl
      · by_cases h2 : n = "y"
        · subst h2; exact .some rfl
        · simp [h1, h2, Ne.symm h1, Ne.symm h2]
    · rcases i with _ | _ | i
      · exact .some rfl
      · exact .some rfl
      · simp [Obj.fieldAt, visFields, i32Obj, Obj.isHidden]
  · show Value.struct _ _ = Obj.toValue _
    cbv


/-! ## The theorems -/

/-- The number of steps does not matter once there is an answer. -/
theorem C99_one_answer {A : Type} (S : SrcImpl A) (E : Env) (t : Ty) (a : A) (n m : Nat)
    (r r' : Option Obj) (h : S.from E n t a = some r) (h' : S.from E m t a = some r') : r = r' := by
  have h1 := S.from_mono E n _ (Nat.le_max_left n m) t a r h
  have h2 := S.from_mono E m _ (Nat.le_max_right n m) t a r' h'
  exact Option.some.inj (h1.symm.trans h2)

/-- `from_reflect` sees no difference between sources that look alike. -/
theorem C99_alike {A B : Type} (S : SrcImpl A) (T : SrcImpl B) (R : A → B → Prop) (h : S.Alike T R)
    (E : Env) (t : Ty) (a : A) (b : B) (hab : S.Looks T R a b) (n : Nat) :
    S.from E n t a = T.from E n t b :=
  SrcImpl.from_same h E n t a b hab

/-- On derived and built-in sources this is the `from_reflect` all the other properties are about. -/
theorem C99_derived (E : Env) (t : Ty) (o : Obj) :
    ∃ n, ∀ m, n ≤ m → (Obj.src E).from E m t o = some (fromReflect E t o) := by
  obtain ⟨n, hn⟩ := Obj.src_from_steps E o t
  exact ⟨n, fun m hm => (Obj.src E).from_mono E n m hm t o _ hn⟩

/-- So what is proved about converting derived and built-in values holds for a hand-written value that
looks like one, although it has another type. -/
theorem C99_hand_written {A : Type} (S : SrcImpl A) (E : Env) (R : A → Obj → Prop)
    (h : S.Alike (Obj.src E) R) (t : Ty) (a : A) (o : Obj) (hao : S.Looks (Obj.src E) R a o) :
    (∃ n, S.from E n t a = some (fromReflect E t o)) ∧
      ∀ n r, S.from E n t a = some r → r = fromReflect E t o := by
  obtain ⟨n, hn⟩ := C99_derived E t o
  have hn' : S.from E n t a = some (fromReflect E t o) :=
    (C99_alike S _ R h E t a o hao n).trans (hn n (Nat.le_refl _))
  exact ⟨⟨n, hn'⟩, fun m r hr => C99_one_answer S E t a m n r _ hr hn'⟩

/-- A derived struct is read from anything that shows itself as a struct: every field that is not
skipped is looked up by its name, and is either a value of the field's type, which is cloned (unless the
type opted out of `Clone`), or something the field's type converts. Nothing else about the source
matters: not its own type, its other fields, their order, or the number of fields it announces. -/
theorem C99_struct_iff {A : Type} (S : SrcImpl A) (E : Env) (m : String) (fds : List FieldDef) (c : Bool)
    (hd : E.decl m = some ⟨.struct fds, c⟩) (a : A) (y : Obj) :
    (∃ n, S.from E n (.named m) a = some (some y)) ↔
      ∃ len field fieldAt nameAt fs, S.view a = .struct len field fieldAt nameAt ∧
        y = .struct (.derived m) fs ∧
        List.Forall₂ (fun fd p => p.1 = fd.name ∧
          if fd.skip then p.2 = .hidden 0
          else ∃ v, field fd.name = some v ∧
            (c = false ∧ S.down v fd.ty = some p.2 ∨
              (c = true ∨ S.down v fd.ty = none) ∧ ∃ n, S.from E n fd.ty v = some (some p.2))) fds fs := by
  constructor
  · rintro ⟨n, h⟩
    cases n with
    | zero => cases h
    | succ n =>
      simp only [SrcImpl.from, hd] at h
      split at h
      · next len field fieldAt nameAt hv =>
        obtain ⟨q, hq, h⟩ := Option.map_eq_some_iff.mp h
        obtain ⟨fs, rfl, rfl⟩ := Option.map_eq_some_iff.mp h
        refine ⟨len, field, fieldAt, nameAt, fs, hv, rfl, ?_⟩
        have := List.forall₂_map_left_iff.mp ((seqAll_some _ _).mp hq)
        refine this.imp fun fd p hp => ?_
        split at hp
        · next hs =>
          cases hp
          rw [if_pos hs]
          exact ⟨rfl, rfl⟩
        · next hs =>
          rw [if_neg hs]
          split at hp
          · cases hp
          · next v hf =>
            obtain ⟨r, hr, hp⟩ := Option.map_eq_some_iff.mp hp
            obtain ⟨x, rfl, rfl⟩ := Option.map_eq_some_iff.mp hp
            refine ⟨rfl, v, hf, ?_⟩
            exact (S.fieldFrom_some _ _ _ _).mp hr |>.imp id fun h => ⟨h.1, n, h.2⟩
      · cases h
  · rintro ⟨len, field, fieldAt, nameAt, fs, hv, rfl, h⟩
    obtain ⟨n, hn⟩ := forall₂_bound (Q := fun fd (p : String × Obj) n => p.1 = fd.name ∧
          if fd.skip then p.2 = .hidden 0
          else ∃ v, field fd.name = some v ∧
            (c = false ∧ S.down v fd.ty = some p.2 ∨
              (c = true ∨ S.down v fd.ty = none) ∧ S.from E n fd.ty v = some (some p.2)))
      (fun fd p n n' hnn hq => by
        refine ⟨hq.1, ?_⟩
        have h2 := hq.2
        split at h2
        · next hs => rw [if_pos hs]; exact h2
        · next hs =>
          rw [if_neg hs]
          obtain ⟨v, hf, hc⟩ := h2
          exact ⟨v, hf, hc.imp id fun h => ⟨h.1, S.from_mono E n n' hnn _ _ _ h.2⟩⟩)
      (h.imp fun fd p hp => by
        obtain ⟨h1, h2⟩ := hp
        by_cases hs : fd.skip = true
        · rw [if_pos hs] at h2
          exact ⟨0, h1, by rw [if_pos hs]; exact h2⟩
        · rw [if_neg hs] at h2
          obtain ⟨v, hf, hc | ⟨hc, n, hn⟩⟩ := h2
          · exact ⟨0, h1, by rw [if_neg hs]; exact ⟨v, hf, Or.inl hc⟩⟩
          · exact ⟨n, h1, by rw [if_neg hs]; exact ⟨v, hf, Or.inr ⟨hc, hn⟩⟩⟩)
    refine ⟨n + 1, ?_⟩
    simp only [SrcImpl.from, hd, hv]
    have : S.namedFields (S.from E n) c field fds = some (some fs) := by
      refine (seqAll_some _ _).mpr (List.forall₂_map_left_iff.mpr (hn.imp fun fd p hp => ?_))
      obtain ⟨h1, h2⟩ := hp
      obtain ⟨p1, p2⟩ := p
      cases h1
      split at h2
      · next hs => cases h2; rw [if_pos hs]
      · next hs =>
        obtain ⟨v, hf, hc⟩ := h2
        rw [if_neg hs, hf]
        dsimp only
        rw [(S.fieldFrom_some _ _ _ _).mpr hc]
        rfl
    rw [this]
    rfl

/-- A `Vec<T>` is read from anything that shows itself as a list: the elements up to the first position
without one, each converted. The length the list announces is not consulted. -/
theorem C99_vec_iff {A : Type} (S : SrcImpl A) (E : Env) (t : Ty) (a : A) (y : Obj) :
    (∃ n, S.from E n (.vec t) a = some (some y)) ↔
      ∃ len get xs, S.view a = .list len get ∧ y = .vec t xs ∧ get xs.length = none ∧
        ∀ i x, xs[i]? = some x → ∃ v, get i = some v ∧ ∃ n, S.from E n t v = some (some x) := by
  constructor
  · rintro ⟨n, h⟩
    cases n with
    | zero => cases h
    | succ n =>
      simp only [SrcImpl.from] at h
      split at h
      · next len get hv =>
        obtain ⟨q, hq, h⟩ := Option.map_eq_some_iff.mp h
        obtain ⟨xs, rfl, rfl⟩ := Option.map_eq_some_iff.mp h
        obtain ⟨h1, h2⟩ := collectLoop_some _ n 0 xs hq
        rw [Nat.zero_add] at h1
        refine ⟨len, get, xs, hv, rfl, by simpa using h1, fun i x hx => ?_⟩
        have := h2 i x hx
        rw [Nat.zero_add] at this
        obtain ⟨v, hv, hx⟩ := Option.map_eq_some_iff.mp this
        exact ⟨v, hv, n, hx⟩
      · cases h
  · rintro ⟨len, get, xs, hv, rfl, hend, h⟩
    obtain ⟨n, hn⟩ := index_bound (Q := fun i x n => ∃ v, get i = some v ∧ S.from E n t v = some (some x))
      (fun i x n n' hnn ⟨v, hg, hx⟩ => ⟨v, hg, S.from_mono E n n' hnn _ _ _ hx⟩) xs
      (fun i x hx => by
        obtain ⟨v, hg, n, hn⟩ := h i x hx
        exact ⟨n, v, hg, hn⟩)
    refine ⟨max n (xs.length + 1) + 1, ?_⟩
    simp only [SrcImpl.from, hv]
    have : listFrom (S.from E n t) get (xs.length + 1) = some (some xs) :=
      collectLoop_of xs 0 (by simpa using hend) fun i x hx => by
        obtain ⟨v, hg, hx⟩ := hn i x hx
        rw [Nat.zero_add, hg]
        exact congrArg some hx
    rw [listFrom_mono (fun a => S.from_mono E n _ (Nat.le_max_left _ _) t a) get (xs.length + 1) _
      (Nat.le_max_right _ _) _ this]
    rfl

/-- An array is never read from something that shows itself as an array: `[T; N]::from_reflect` asks
for a list. -/
theorem C99_array_view_refused {A : Type} (S : SrcImpl A) (E : Env) (t : Ty) (k : Nat) (a : A) (len : Nat)
    (get : Nat → Option A) (hv : S.view a = .array len get) (n : Nat) :
    S.from E (n + 1) (.array t k) a = some none := by
  simp only [SrcImpl.from, hv]

/-- So a derived struct with an array field is not read from a source whose field is a hand-written
array, whatever its elements are, though a real `[T; N]` there is cloned. -/
theorem C99_array_field_refused {A : Type} (S : SrcImpl A) (E : Env) (m : String) (fds : List FieldDef)
    (c : Bool) (hd : E.decl m = some ⟨.struct fds, c⟩) (fd : FieldDef) (hfd : fd ∈ fds)
    (hs : fd.skip = false) (t : Ty) (k : Nat) (ht : fd.ty = .array t k) (a : A)
    (hf : ∀ len field fieldAt nameAt, S.view a = .struct len field fieldAt nameAt →
      ∀ v, field fd.name = some v → S.any v = none ∧ ∃ len get, S.view v = .array len get)
    (n : Nat) (r : Option Obj) (h : S.from E n (.named m) a = some r) : r = none := by
  cases r with
  | none => rfl
  | some y =>
    obtain ⟨len, field, fieldAt, nameAt, fs, hv, rfl, h2⟩ := (C99_struct_iff S E m fds c hd a y).mp ⟨n, h⟩
    obtain ⟨p, -, hp, hp2⟩ := forall₂_mem_left h2 hfd
    rw [hs] at hp2
    obtain ⟨v, hfv, hc⟩ := hp2
    obtain ⟨hany, len', get, hview⟩ := hf _ _ _ _ hv v hfv
    have hdn : S.down v fd.ty = none := by unfold SrcImpl.down; rw [hany]
    rcases hc with ⟨_, hc⟩ | ⟨_, n', hn'⟩
    · rw [hdn] at hc; cases hc
    · cases n' with
      | zero => cases hn'
      | succ n' =>
        rw [ht, C99_array_view_refused S E t k v len' get hview] at hn'
        cases hn'

/-- A list that always has another element, each of which converts, is read for ever. -/
theorem C99_endless {A : Type} (S : SrcImpl A) (E : Env) (t : Ty) (a : A) (len : Nat)
    (get : Nat → Option A) (hv : S.view a = .list len get)
    (h : ∀ i, ∃ v, get i = some v ∧ ∀ n, S.from E n t v ≠ some none) (n : Nat) :
    S.from E n (.vec t) a = none := by
  cases n with
  | zero => rfl
  | succ n =>
    simp only [SrcImpl.from, hv]
    rw [show listFrom (S.from E n t) get n = none from collectLoop_endless (fun i => by
      obtain ⟨v, hg, hx⟩ := h i
      exact ⟨S.from E n t v, by rw [hg]; rfl, hx n⟩) n 0]
    rfl


/-! ## Cases that meet the hypotheses -/

/-- A derived `Flip` with the fields of a point in the other order and one that is skipped. -/
def flipEnv : Env :=
  ⟨fun n => if n = "Flip" then
      some ⟨.struct [⟨"y", .scalar (.int .i32), false⟩, ⟨"cache", .scalar .string, true⟩,
        ⟨"x", .nonzero .i32, false⟩], false⟩
    else none, fun _ _ _ => .eq⟩

/-- A derived struct is read from a hand-written one. -/
example : ∃ n, (Hand.src flipEnv).from flipEnv n (.named "Flip") (.point 1 2) =
    some (some (.struct (.derived "Flip") [("y", i32Obj 2), ("cache", .hidden 0),
      ("x", .nonzero .i32 1)])) := by
  refine ⟨3, ?_⟩
  cbv

/-- The same through the derived struct it looks like. -/
example : ∃ n, (Hand.src flipEnv).from flipEnv n (.named "Flip") (.point 0 2) = some none := by
  obtain ⟨n, hn⟩ := (C99_hand_written (Hand.src flipEnv) flipEnv _ (Hand.src_alike flipEnv)
    (.named "Flip") (.point 0 2) _ (Hand.point_looks flipEnv 0 2)).1
  refine ⟨n, hn.trans ?_⟩
  cbv

/-- A program with a hand-written fixed-size array type, a list that announces no element and has two,
and a struct around the array. -/
inductive Fixed
  | num (n : Int)
  | pair (x y : Int)
  | quiet (x y : Int)
  | around (x y : Int)
  | every

def Fixed.view : Fixed → RefView Fixed
  | .num n => .scalar (.int .i32 n)
  | .pair x y => .array 2 fun i => ([.num x, .num y] : List Fixed)[i]?
  | .quiet x y => .list 0 fun i => ([.num x, .num y] : List Fixed)[i]?
  | .around x y =>
    .struct 1 (fun n => if n = "xs" then some (.pair x y) else none)
      (fun i => ([.pair x y] : List Fixed)[i]?) fun i => (["xs"] : List String)[i]?
  | .every => .list 0 fun i => some (.num i)

def Fixed.src : SrcImpl Fixed :=
  { view := Fixed.view
    ofValue := fun _ => .every
    any := fun
      | .num n => some (i32Obj n)
      | _ => none
    toValue := fun
      | .num n => .scalar (.int .i32 n)
      | _ => .list [] }

def fixedEnv : Env :=
  ⟨fun n => if n = "Holder" then
      some ⟨.struct [⟨"xs", .array (.scalar (.int .i32)) 2, false⟩], false⟩
    else none, fun _ _ _ => .eq⟩

/-- The field is there and has the two numbers, and the struct is not read. -/
example (n : Nat) (r : Option Obj) (h : Fixed.src.from fixedEnv n (.named "Holder") (.around 1 2) = some r) :
    r = none := by
  refine C99_array_field_refused Fixed.src fixedEnv "Holder" _ false rfl _ List.mem_cons_self rfl _ _ rfl
    _ (fun len field fieldAt nameAt hv v hf => ?_) n r h
  cases hv
  dsimp only at hf
  rw [if_pos rfl] at hf
  cases hf
  exact ⟨rfl, _, _, rfl⟩

/-- The real array of those numbers is cloned into it. -/
example : fromReflect fixedEnv (.named "Holder")
    (.struct (.derived "Other") [("xs", .array (.scalar (.int .i32)) [i32Obj 1, i32Obj 2])]) =
      some (.struct (.derived "Holder") [("xs", .array (.scalar (.int .i32)) [i32Obj 1, i32Obj 2])]) := by
  cbv

/-- Both elements are read although the list says it has none. -/
example : ∃ n, Fixed.src.from fixedEnv n (.vec (.scalar (.int .i32))) (.quiet 1 2) =
    some (some (.vec (.scalar (.int .i32)) [i32Obj 1, i32Obj 2])) := by
  refine ⟨4, ?_⟩
  cbv

/-- A list without an end. -/
example (n : Nat) : Fixed.src.from fixedEnv n (.vec (.scalar (.int .i32))) .every = none := by
  refine C99_endless Fixed.src fixedEnv _ .every 0 _ rfl (fun i => ⟨_, rfl, fun n => ?_⟩) n
  cases n with
  | zero => intro h; cases h
  | succ n => simp [SrcImpl.from, SrcImpl.down, Fixed.src, i32Obj, Obj.isTy, Obj.typeOf, Scalar.kind]

end Mirror
