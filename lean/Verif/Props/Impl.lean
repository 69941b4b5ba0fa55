import Verif.Lemmas.Impl

/-!
# C98: hand-written `Reflect` implementations

`at` and `reflect_eq` depend on a value only through the answers of its trait methods. What they do is
said here for every implementation of those traits; the derived and built-in types are one of them. The
doc comment of `reflect_eq` (reflect_eq.rs:6-8: "Returns `None` if either value contains a
`ReflectRef::Opaque`") is not what it does: a difference found before the opaque part decides.
-/

namespace Mirror

/-! ## A program with hand-written types -/

/-- The values of a program with two hand-written struct types beside the derived ones: `point` has the
fields `x` and `y`, `locked` has a number and an opaque field. -/
inductive Hand
  | obj (o : Obj)
  | point (x y : Int)
  | locked (label : Int)
  | secret

def i32Obj (n : Int) : Obj := .scalar (.int .i32 n)

/-- The derived or built-in value it looks like, if there is one. -/
def Hand.as : Hand → Option Obj
  | .obj o => some o
  | .point x y => some (.struct (.derived "Point") [("x", i32Obj x), ("y", i32Obj y)])
  | .locked _ => none
  | .secret => none

def RefView.through {A B : Type} (f : A → B) (g : B → Option A) : RefView A → RefView B
  | .scalar s => .scalar s
  | .struct len field fieldAt nameAt =>
    .struct len (fun n => (field n).map f) (fun i => (fieldAt i).map f) nameAt
  | .tupleStruct len get => .tupleStruct len fun i => (get i).map f
  | .tuple len get => .tuple len fun i => (get i).map f
  | .enum v k len field fieldAt nameAt =>
    .enum v k len (fun n => (field n).map f) (fun i => (fieldAt i).map f) nameAt
  | .array len get => .array len fun i => (get i).map f
  | .list len get => .list len fun i => (get i).map f
  | .map len get entries =>
    .map len (fun k => ((g k).bind get).map f) fun i => (entries i).map fun p => (f p.1, f p.2)
  | .opaque => .opaque

def Hand.view (E : Env) : Hand → RefView Hand
  | .obj o => (o.view E).through .obj Hand.as
  | .point x y =>
    .struct 2 (fun n => if n = "x" then some (.obj (i32Obj x)) else
        if n = "y" then some (.obj (i32Obj y)) else none)
      (fun i => ([.obj (i32Obj x), .obj (i32Obj y)] : List Hand)[i]?)
      (fun i => (["x", "y"] : List String)[i]?)
  | .locked l =>
    .struct 2 (fun n => if n = "label" then some (.obj (i32Obj l)) else
        if n = "secret" then some .secret else none)
      (fun i => ([.obj (i32Obj l), .secret] : List Hand)[i]?)
      (fun i => (["label", "secret"] : List String)[i]?)
  | .secret => .opaque

def Hand.impl (E : Env) : Impl Hand := ⟨Hand.view E, fun v => .obj v.toObj⟩

theorem optionRel_map {α β γ : Type} {R : β → γ → Prop} {f : α → β} {g : α → γ} (o : Option α)
    (h : ∀ x, R (f x) (g x)) : Option.Rel R (o.map f) (o.map g) := by
  cases o with
  | none => exact .none
  | some x => exact .some (h x)

/-- A hand-written struct that looks like a derived one cannot be told from it. -/
theorem Hand.alike (E : Env) : (Hand.impl E).Alike (Obj.impl E) fun h o => h.as = some o := by
  refine ⟨?_, fun v => rfl⟩
  intro h o ho
  have rel : ∀ q : Option Obj, Option.Rel (fun (h : Hand) o => h.as = some o) (q.map .obj) q := by
    intro q
    cases q with
    | none => exact .none
    | some x => exact .some rfl
  cases h with
  | obj o' =>
    cases ho
    show RefView.Same _ ((o.view E).through .obj Hand.as) (o.view E)
    cases o.view E with
    | scalar s => exact .scalar s
    | struct len f g n => exact .struct (fun n => rel _) fun i => rel _
    | tupleStruct len g => exact .tupleStruct fun i => rel _
    | tuple len g => exact .tuple fun i => rel _
    | enum v k len f g n => exact .enum (fun n => rel _) fun i => rel _
    | array len g => exact .array fun i => rel _
    | list len g => exact .list fun i => rel _
    | map len g e =>
      refine .map (fun k k' hk => ?_) fun i => ?_
      · rw [hk]; exact rel _
      · cases e i with
        | none => exact .none
        | some p => exact .some ⟨rfl, rfl⟩
    | «opaque» => exact .opaque
  | point x y =>
    cases ho
    have hn : (Obj.struct (.derived "Point") [("x", i32Obj x), ("y", i32Obj y)]).nameAt =
        fun i => (["x", "y"] : List String)[i]? := by
      funext i
      rcases i with _ | _ | i <;> simp [Obj.nameAt, visFields, i32Obj, Obj.isHidden]
    show RefView.Same _ (Hand.view E (.point x y))
      (.struct 2 (Obj.field _) (Obj.fieldAt _) (Obj.nameAt _))
    rw [hn]
    refine .struct (fun n => ?_) fun i => ?_
    · simp only [Obj.field, visFields, i32Obj, Obj.isHidden, List.filter, lookup, Bool.not_false]
      by_cases h1 : n = "x"
      · subst h1; exact .some rfl
      · by_cases h2 : n = "y"
        · subst h2; exact .some rfl
        · have h1' : ¬ "x" = n := fun e => h1 e.symm
          have h2' : ¬ "y" = n := fun e => h2 e.symm
          simp only [h1, h2, h1', h2', if_false]
          exact .none
    · rcases i with _ | _ | i
      · exact .some rfl
      · exact .some rfl
      · exact .none
  | locked l => cases ho
  | secret => cases ho

/-! ## The comparison, for every implementation -/

/-- Whether it comes to an answer, and to which, does not depend on how long one is prepared to wait. -/
theorem C98_one_answer {A : Type} (I : Impl A) (a b : A) (n m : Nat) (r s : Option Bool)
    (h : I.reflectEq n a b = some r) (h' : I.reflectEq m a b = some s) : r = s := by
  have h1 := I.reflectEq_mono n (max n m) (Nat.le_max_left _ _) a b r h
  have h2 := I.reflectEq_mono m (max n m) (Nat.le_max_right _ _) a b s h'
  rw [h1] at h2
  exact Option.some.inj h2

/-- `Some(true)` exactly for values that are equal as far as their methods show. -/
theorem C98_equal_iff {A : Type} (I : Impl A) (a b : A) :
    (∃ n, I.reflectEq n a b = some (some true)) ↔ I.Equal a b :=
  ⟨fun ⟨n, h⟩ => I.equal_of n a b h, fun h => h.steps⟩

/-- `None` exactly if something opaque comes before any difference. -/
theorem C98_undecided_iff_partial {A : Type} (I : Impl A) (a b : A) :
    (∃ n, I.reflectEq n a b = some none) ↔ I.Undecided a b :=
  ⟨fun ⟨n, h⟩ => I.undecided_of n a b h, fun h => h.steps⟩

/-- The number of parts a view announces. -/
def RefView.count {A : Type} : RefView A → Nat
  | .struct len _ _ _ | .tupleStruct len _ | .tuple len _ | .enum _ _ len _ _ _ | .array len _
  | .list len _ | .map len _ _ => len
  | _ => 0

theorem part_lt {A : Type} {v : RefView A} (hr : v.Regular) {i : Nat} {z : A} (hp : v.Part i z) :
    i < v.count := by
  cases hp <;> cases hr <;> simp only [RefView.count] <;> grind

theorem over_le {A : Type} {v w : RefView A} (hv : v.Regular) (hw : w.Regular) (hs : v.SameShape w)
    {m : Nat} (ho : v.Over w m) : v.count ≤ m := by
  cases hs <;> cases hv <;> cases hw <;> cases ho <;> simp only [RefView.count] <;> grind

/-- A value that contains something opaque never comes out equal to another, if the values announce as
many parts as they have. -/
theorem C98_opaque_never_equal {A : Type} (I : Impl A) (hr : ∀ a, (I.view a).Regular) (a b : A)
    (ha : I.ContainsOpaque a) (n : Nat) : I.reflectEq n a b ≠ some (some true) := by
  intro h
  have he := I.equal_of n a b h
  clear h
  induction ha generalizing b with
  | here hv =>
    cases he with
    | scalar h1 => rw [hv] at h1; cases h1
    | parts m x y hs => rw [hv] at hs; cases hs
  | @part a z i hp _ ih =>
    cases he with
    | scalar h1 => rw [h1] at hp; cases hp
    | parts m x y hs hc he ho =>
      have hi : i < m := Nat.lt_of_lt_of_le (part_lt (hr a) hp) (over_le (hr a) (hr b) hs ho)
      have hx : x i = z := by
        have := hc i hi
        generalize I.view a = v, I.view b = w at hp this
        cases hp <;> cases this <;> simp_all
      exact ih (y i) (hx ▸ he i hi)

/-- A difference in kind, variant or number of parts decides at once, whatever is inside. -/
theorem C98_shape_decides {A : Type} (I : Impl A) (a b : A) (n : Nat)
    (hs : ¬ (I.view a).SameShape (I.view b))
    (hk : ∀ s t, I.view a = .scalar s → I.view b ≠ .scalar t)
    (ha : I.view a ≠ .opaque) (hb : I.view b ≠ .opaque) :
    I.reflectEq (n + 1) a b = some (some false) := by
  have hp := planOf (I.view a) (I.view b)
  simp only [Impl.reflectEq]
  generalize hv : I.view a = v, hw : I.view b = w at hs hk ha hb hp
  generalize v.plan w = p at hp
  cases hp with
  | scalar => exact (hk _ _ rfl rfl).elim
  | walk h => exact (hs h.shape).elim
  | unit h => exact (hs h).elim
  | left => exact (ha rfl).elim
  | right => exact (hb rfl).elim
  | differ => rfl

/-- The first part that differs decides, whatever comes after it. -/
theorem C98_first_difference_decides {A : Type} (I : Impl A) (a b : A) (m : Nat) (x y : Nat → A)
    (hs : (I.view a).SameShape (I.view b))
    (hc : ∀ i, i ≤ m → (I.view a).Counterpart (I.view b) i (x i) (y i))
    (he : ∀ i, i < m → I.Equal (x i) (y i)) (hd : ∃ n, I.reflectEq n (x m) (y m) = some (some false)) :
    ∃ n, I.reflectEq n a b = some (some false) := by
  rcases plan_of_shape hs with ⟨turn, hp, hw⟩ | ⟨hp, hc'⟩
  · obtain ⟨k, hk⟩ := hd
    obtain ⟨N, hN⟩ := bound_steps
      (P := fun i n => I.reflectEq n (x i) (y i) = some (some true))
      (fun i n n' hn h => I.reflectEq_mono n n' hn _ _ _ h) m (fun i hi => (he i hi).steps)
    refine I.reflectEq_of_loop hp (max N k) (.stop m (x m) (y m) (some false) (Nat.zero_le _)
      (fun j _ hj => ⟨x j, y j, (hw.pair _ _ _).mpr (hc j (by omega)), ?_⟩)
      ((hw.pair _ _ _).mpr (hc m (Nat.le_refl _))) ?_ (by simp))
    · exact I.reflectEq_mono _ _ (Nat.le_max_left _ _) _ _ _ (hN j hj)
    · exact I.reflectEq_mono _ _ (Nat.le_max_right _ _) _ _ _ hk
  · exact (hc' _ _ _ (hc 0 (Nat.zero_le _))).elim

/-- Values that answer alike compare alike. -/
theorem C98_alike_eq {A B : Type} (I : Impl A) (J : Impl B) (R : A → B → Prop) (h : I.Alike J R)
    (a b : A) (a' b' : B) (ha : R a a') (hb : R b b') (n : Nat) :
    I.reflectEq n a b = J.reflectEq n a' b' :=
  Impl.reflectEq_same h n ha hb

/-- Values that answer alike have the same paths, and what is found there answers alike. -/
theorem C98_alike_at {A B : Type} (I : Impl A) (J : Impl B) (R : A → B → Prop) (h : I.Alike J R)
    (a : A) (a' : B) (ha : R a a') (p : KeyPath) : Option.Rel R (I.at a p) (J.at a' p) :=
  Impl.at_same h ha p

/-- On the derived and built-in types these are the comparison and the access that the other
properties are about. -/
theorem C98_derived (E : Env) (a b : Obj) (p : KeyPath) :
    (∃ n, ∀ m, n ≤ m → (Obj.impl E).reflectEq m a b = some (reflectEq E a b)) ∧
      (Obj.impl E).at a p = atPath E a p := by
  obtain ⟨n, hn⟩ := Obj.impl_reflectEq_steps E a b
  exact ⟨⟨n, fun m hm => (Obj.impl E).reflectEq_mono n m hm a b _ hn⟩, Obj.impl_at E a p⟩

/-- So what is proved about derived and built-in types holds for hand-written ones that answer like
them: same comparisons, same paths. -/
theorem C98_hand_written {A : Type} (I : Impl A) (E : Env) (R : A → Obj → Prop)
    (h : I.Alike (Obj.impl E) R) (a b : A) (o o' : Obj) (ha : R a o) (hb : R b o') :
    (∃ n, I.reflectEq n a b = some (reflectEq E o o')) ∧
      (∀ n r, I.reflectEq n a b = some r → r = reflectEq E o o') ∧
      ∀ p, Option.Rel R (I.at a p) (atPath E o p) := by
  obtain ⟨⟨n, hn⟩, _⟩ := C98_derived E o o' []
  have hn' : I.reflectEq n a b = some (reflectEq E o o') := by
    rw [C98_alike_eq I _ R h a b o o' ha hb, hn n (Nat.le_refl _)]
  refine ⟨⟨n, hn'⟩, fun m r hr => C98_one_answer I a b m n r _ hr hn', fun p => ?_⟩
  rw [← Obj.impl_at]
  exact C98_alike_at I _ R h a o ha p

/-! ## Cases that meet the hypotheses -/

def handEnv : Env := ⟨fun _ => none, fun _ _ _ => .eq⟩

/-- A hand-written `Point` compares equal to the `StructValue` with its fields. -/
example : ∃ n, (Hand.impl handEnv).reflectEq n (.point 1 2)
    (.obj (Value.toObj (.struct ["y", "x"] [("x", .scalar (.int .i32 1)), ("y", .scalar (.int .i32 2))]))) =
      some (some true) := by
  refine ⟨4, ?_⟩
  cbv

/-- The same through the derived struct it looks like. -/
example : ∃ n, (Hand.impl handEnv).reflectEq n (.point 1 2) (.point 1 3) = some (some false) := by
  obtain ⟨h, _⟩ := C98_hand_written (Hand.impl handEnv) handEnv _ (Hand.alike handEnv)
    (.point 1 2) (.point 1 3) _ _ rfl rfl
  obtain ⟨n, hn⟩ := h
  refine ⟨n, hn.trans ?_⟩
  cbv

/-- Its fields are found by path. -/
example : (Hand.impl handEnv).at (.point 1 2) [.named "y"] = some (.obj (i32Obj 2)) := by cbv

/-- A program with a hand-written struct that has an opaque field. -/
inductive Vault
  | num (n : Int)
  | locked (label : Int)
  | empty
  | secret

def Vault.view : Vault → RefView Vault
  | .num n => .scalar (.int .i32 n)
  | .locked l =>
    .struct 2 (fun n => if n = "label" then some (.num l) else
        if n = "secret" then some .secret else none)
      (fun i => ([.num l, .secret] : List Vault)[i]?)
      (fun i => (["label", "secret"] : List String)[i]?)
  | .empty => .struct 0 (fun _ => none) (fun _ => none) fun _ => none
  | .secret => .opaque

def Vault.impl : Impl Vault := ⟨Vault.view, fun _ => .secret⟩

theorem Vault.regular (a : Vault) : (Vault.impl.view a).Regular := by
  cases a with
  | num n => exact .scalar
  | locked l =>
    refine .struct (fun i => ?_) fun i => ?_ <;> rcases i with _ | _ | i <;> simp
  | empty => exact .struct (fun i => by simp) fun i => by simp
  | secret => exact .opaque

theorem Vault.contains (l : Int) : Vault.impl.ContainsOpaque (.locked l) :=
  .part (i := 1) (x := .secret) (.struct rfl) (.here rfl)

/-- The doc comment does not hold: both values contain something opaque, the announced numbers of parts
are right, and the answer is `Some(false)`, because an earlier field differs; and one of them against a
struct without fields, because the numbers of fields differ. -/
theorem C98_opaque_missed :
    (∀ a, (Vault.impl.view a).Regular) ∧
      (∀ l l', l ≠ l' → Vault.impl.ContainsOpaque (.locked l) ∧ Vault.impl.ContainsOpaque (.locked l') ∧
        ∃ n, Vault.impl.reflectEq n (.locked l) (.locked l') = some (some false)) ∧
      ∀ l n, Vault.impl.reflectEq (n + 1) (.locked l) .empty = some (some false) := by
  refine ⟨Vault.regular, fun l l' hl => ⟨Vault.contains l, Vault.contains l', ?_⟩, fun l n => ?_⟩
  · refine C98_first_difference_decides Vault.impl (.locked l) (.locked l') 0 (fun _ => .num l)
      (fun _ => .num l') .struct (fun i hi => ?_) (fun i hi => absurd hi (by omega)) ⟨1, ?_⟩
    · obtain rfl : i = 0 := by omega
      exact .struct (n := "label") rfl rfl rfl
    · simp [Impl.reflectEq, Vault.impl, Vault.view, RefView.plan, Scalar.eqv, hl]
  · exact C98_shape_decides Vault.impl _ _ n (by rintro ⟨⟩) (by rintro s t ⟨⟩) (by rintro ⟨⟩) (by rintro ⟨⟩)

/-- With equal labels the opaque field is reached. -/
example (l : Int) : Vault.impl.Undecided (.locked l) (.locked l) := by
  refine .part 1 (fun i => if i = 0 then .num l else .secret)
    (fun i => if i = 0 then .num l else .secret) .struct (fun i hi => ?_) (fun i hi => ?_) (.left rfl)
  · rcases i with _ | _ | i
    · exact .struct (n := "label") rfl rfl rfl
    · exact .struct (n := "secret") rfl rfl rfl
    · omega
  · obtain rfl : i = 0 := by omega
    exact .scalar (s := .int .i32 l) (t := .int .i32 l) rfl rfl (by simp [Scalar.eqv])

/-- An implementation may yield fields for ever; then there is no answer. -/
def endless : Impl Unit := ⟨fun _ => .list 0 fun _ => some (), fun _ => ()⟩

theorem C98_endless (n : Nat) : endless.reflectEq n () () = none := by
  have loop : ∀ cmp : Unit → Unit → Option (Option Bool), (∀ x y, cmp x y = none) → ∀ f i,
      eqLoop cmp (posTurn (fun _ => some ()) fun _ => some ()) f i = none := by
    intro cmp hc f i
    cases f with
    | zero => rfl
    | succ f => simp [eqLoop, posTurn, hc]
  induction n with
  | zero => rfl
  | succ n ih =>
    show eqLoop (endless.reflectEq n) _ n 0 = none
    exact loop _ (fun x y => ih) n 0


end Mirror
