import Verif.Lemmas.ImplVisitEnd
import Verif.Props.Impl

/-!
# C101: `try_visit` on values whose `Reflect` implementation somebody wrote by hand

`try_visit` takes any `&dyn Reflect` with any type descriptor. What it does is said here for every
implementation; the derived and built-in types are one of them.
-/

namespace Mirror

/-- The number of steps does not matter once there is an answer. -/
theorem C101_one_answer {A σ ε : Type} (I : Impl A) (g : TypeGraph) (v : VisitorA A σ ε) (id : Ty) (a : A)
    (s : σ) (n m : Nat) (r r' : Visited σ ε) (h : I.visit g v n id a s = some r)
    (h' : I.visit g v m id a s = some r') : r = r' := by
  have h1 := I.visit_mono g v n _ (Nat.le_max_left n m) id a s r h
  have h2 := I.visit_mono g v m _ (Nat.le_max_right n m) id a s r' h'
  exact Option.some.inj (h1.symm.trans h2)

/-- On derived and built-in values this is the `try_visit` of the other properties. -/
theorem C101_derived {σ ε : Type} (E : Env) (g : TypeGraph) (v : Visitor σ ε) (id : Ty) (o : Obj) :
    ∃ n, ∀ m, n ≤ m → ∀ s,
      (Obj.impl E).visit g (fun l => v l.toLeaf) m id o s = some (tryVisit g v id o s) := by
  obtain ⟨n, hn⟩ := Obj.impl_visit_steps E g v o id
  exact ⟨n, fun m hm s => (Obj.impl E).visit_mono g _ n m hm id o s _ (hn s)⟩

/-- Visitors that do not tell the opaque values of two programs apart go through values that look alike in
the same way. -/
theorem C101_alike {A B σ ε : Type} (I : Impl A) (J : Impl B) (R : A → B → Prop) (h : I.Alike J R)
    (g : TypeGraph) (v : VisitorA A σ ε) (w : VisitorA B σ ε)
    (hs : ∀ x s, v (.scalar x) s = w (.scalar x) s)
    (ho : ∀ a b t s, R a b → v (.opaque a t) s = w (.opaque b t) s) (id : Ty) (a : A) (b : B) (hab : R a b)
    (s : σ) (n : Nat) : I.visit g v n id a s = J.visit g w n id b s :=
  I.visit_same h g hs ho n id a b s hab

/-- So a hand-written value that looks like a derived or built-in one is visited like it. -/
theorem C101_hand_written {A σ ε : Type} (I : Impl A) (E : Env) (R : A → Obj → Prop)
    (h : I.Alike (Obj.impl E) R) (g : TypeGraph) (v : VisitorA A σ ε) (w : Visitor σ ε)
    (hs : ∀ x s, v (.scalar x) s = w (.scalar x) s)
    (ho : ∀ a o t s, R a o → v (.opaque a t) s = w (.opaque o t) s) (id : Ty) (a : A) (o : Obj) (hao : R a o)
    (s : σ) : (∃ n, I.visit g v n id a s = some (tryVisit g w id o s)) ∧
      ∀ n r, I.visit g v n id a s = some r → r = tryVisit g w id o s := by
  obtain ⟨n, hn⟩ := C101_derived E g w id o
  have hn' : I.visit g v n id a s = some (tryVisit g w id o s) :=
    (C101_alike I _ R h g v (fun l => w l.toLeaf) hs ho id a o hao s n).trans (hn n (Nat.le_refl _) s)
  exact ⟨⟨n, hn'⟩, fun m r hr => C101_one_answer I g v id a s m n r _ hr hn'⟩

/-- If a value comes down to leaves along a type, the visitor is called with them in order, up to the first
for which it returns an error, and that is all: the visit comes to an end and does not panic. -/
theorem C101_shows {A σ ε : Type} (I : Impl A) (g : TypeGraph) (id : Ty) (a : A) (ls : List (LeafA A))
    (h : I.Shows g id a ls) (v : VisitorA A σ ε) :
    ∃ n, ∀ m, n ≤ m → ∀ s, I.visit g v m id a s = some (callAll v ls s) := by
  obtain ⟨n, hn⟩ := Impl.ShowAll.visit v h
  refine ⟨n, fun m hm s => I.visit_mono g v n m hm id a s _ ?_⟩
  have := hn s
  simp only [visitSeq] at this
  cases hq : I.visit g v n id a s with
  | none => rw [hq] at this; cases this
  | some w =>
    rw [hq] at this
    cases w <;> exact this

/-- A visit is `Ok` exactly if the value comes down to leaves along the type and the visitor accepts each
of them. -/
theorem C101_ok_iff {A σ ε : Type} (I : Impl A) (g : TypeGraph) (v : VisitorA A σ ε) (id : Ty) (a : A)
    (s s' : σ) : (∃ n, I.visit g v n id a s = some (.ok s')) ↔
      ∃ ls, I.Shows g id a ls ∧ callAll v ls s = .ok s' := by
  constructor
  · rintro ⟨n, h⟩
    refine Impl.visit_ok v n _ s s' ?_
    simp only [visitSeq, h]
  · rintro ⟨ls, h, hc⟩
    obtain ⟨n, hn⟩ := C101_shows I g id a ls h v
    exact ⟨n, by rw [hn n (Nat.le_refl _), hc]⟩

/-- A visit returns an error exactly if the visitor returns it for a leaf the value begins with, having
accepted the ones before. What comes after that leaf does not matter. -/
theorem C101_err_iff {A σ ε : Type} (I : Impl A) (g : TypeGraph) (v : VisitorA A σ ε) (id : Ty) (a : A)
    (s s' : σ) (e : ε) : (∃ n, I.visit g v n id a s = some (.err e s')) ↔
      ∃ ls, I.Begins g [(id, a)] ls ∧ callAll v ls s = .err e s' := by
  constructor
  · rintro ⟨n, h⟩
    exact Impl.visit_err v n _ s e s' ((visitSeq_singleton _ _ _ _).trans h)
  · rintro ⟨ls, h, hc⟩
    obtain ⟨n, hn⟩ := h.visit v
    exact ⟨n, (visitSeq_singleton _ _ _ _).symm.trans (hn s e s' hc)⟩

/-- A visit panics exactly if something the type asks for is not there and the visitor has accepted all the
leaves before it. -/
theorem C101_panic_iff {A σ ε : Type} (I : Impl A) (g : TypeGraph) (v : VisitorA A σ ε) (id : Ty) (a : A)
    (s s' : σ) : (∃ n, I.visit g v n id a s = some (.panic s')) ↔
      ∃ ls, I.Breaks g [(id, a)] ls ∧ callAll v ls s = .ok s' := by
  constructor
  · rintro ⟨n, h⟩
    exact Impl.visit_panic v n _ s s' ((visitSeq_singleton _ _ _ _).trans h)
  · rintro ⟨ls, h, hc⟩
    obtain ⟨n, hn⟩ := h.visit v
    exact ⟨n, (visitSeq_singleton _ _ _ _).symm.trans (hn s s' hc)⟩

/-- A value comes down to at most one list of leaves along a type. -/
theorem C101_leaves_unique {A : Type} (I : Impl A) (g : TypeGraph) (id : Ty) (a : A)
    (ls ls' : List (LeafA A)) (h : I.Shows g id a ls) (h' : I.Shows g id a ls') : ls = ls' := by
  have record : ∀ (l : List (LeafA A)) (s : List (LeafA A)),
      callAll (ε := Empty) (fun x s => (none, s ++ [x])) l s = .ok (s ++ l) := by
    intro l
    induction l with
    | nil => intro s; simp [callAll]
    | cons x l ih => intro s; simp only [callAll]; rw [ih]; simp
  obtain ⟨n, hn⟩ := C101_shows (ε := Empty) I g id a ls h fun x s => (none, s ++ [x])
  obtain ⟨m, hm⟩ := C101_shows (ε := Empty) I g id a ls' h' fun x s => (none, s ++ [x])
  have := C101_one_answer I g _ id a [] n m _ _ (hn n (Nat.le_refl _) []) (hm m (Nat.le_refl _) [])
  rw [record, record] at this
  cases this
  rfl

/-- A list that has an element at every position is never visited to the end: the length it announces does
not stop the visit. -/
theorem C101_endless {A σ ε : Type} (I : Impl A) (g : TypeGraph) (v : VisitorA A σ ε) (id t : Ty)
    (hn : g.node id = some (.list t)) (a : A) (len : Nat) (get : Nat → Option A)
    (hv : I.view a = .list len get) (h : ∀ i, (get i).isSome) (n : Nat) (s s' : σ) :
    I.visit g v n id a s ≠ some (.ok s') := by
  intro hc
  obtain ⟨ls, hs, -⟩ := (C101_ok_iff I g v id a s s').mp ⟨n, hc⟩
  cases hs with
  | scalar h1 => rw [hn] at h1; cases h1
  | «opaque» h1 => rw [hn] at h1; cases h1
  | parts h1 h2 =>
    rw [hn] at h1
    cases h1
    rw [hv] at h2
    cases h2 with
    | @list _ _ _ xs _ h3 => have := h xs.length; rw [h3] at this; cases this

/-- A struct that does not have every field the type lists makes the visit panic, fail or go on for ever,
although its implementation is free to hide a field. -/
theorem C101_missing_field {A σ ε : Type} (I : Impl A) (g : TypeGraph) (v : VisitorA A σ ε) (id : Ty)
    (names : List String) (fields : List (String × Ty)) (hn : g.node id = some (.struct names fields)) (a : A)
    (len : Nat) (field : String → Option A) (fieldAt : Nat → Option A) (nameAt : Nat → Option String)
    (hv : I.view a = .struct len field fieldAt nameAt) (f : String) (hf : f ∈ names) (h : field f = none)
    (n : Nat) (s s' : σ) : I.visit g v n id a s ≠ some (.ok s') := by
  intro hc
  obtain ⟨ls, hs, -⟩ := (C101_ok_iff I g v id a s s').mp ⟨n, hc⟩
  cases hs with
  | scalar h1 => rw [hn] at h1; cases h1
  | «opaque» h1 => rw [hn] at h1; cases h1
  | parts h1 h2 =>
    rw [hn] at h1
    cases h1
    rw [hv] at h2
    cases h2 with
    | struct h3 =>
      obtain ⟨q, hq, rfl⟩ : ∃ q ∈ namedTypes names fields, q.1 = f := by
        simp only [namedTypes, List.mem_map]
        exact ⟨_, ⟨f, hf, rfl⟩, rfl⟩
      obtain ⟨j, hj, rfl⟩ := List.mem_iff_getElem.mp hq
      have := (List.forall₂_iff_get.mp h3).2 j hj (by rw [← h3.length_eq]; exact hj)
      simp only [List.get_eq_getElem] at this
      rw [h] at this
      cases this.2

/-! ## Cases that meet the hypotheses -/

/-- Descriptors of `Point { x: i32, y: i32 }`, of `Locked { label: i32, secret: Secret }` with an opaque
`Secret`, and of `Vec<i32>`. -/
def pointGraph : TypeGraph := fun t =>
  if t = .named "Point" then some (some (.struct ["x", "y"] [("x", .scalar (.int .i32)), ("y", .scalar (.int .i32))]))
  else if t = .scalar (.int .i32) then some (some (.scalar (.int .i32)))
  else if t = .vec (.scalar (.int .i32)) then some (some (.list (.scalar (.int .i32))))
  else if t = .named "Locked" then some (some (.struct ["label", "secret"]
    [("label", .scalar (.int .i32)), ("secret", .named "Secret")]))
  else if t = .named "Secret" then some (some .opaque)
  else none

/-- A hand-written struct with an opaque field comes down to a number and the opaque value. -/
theorem Hand.locked_shows (n : Int) : (Hand.impl handEnv).Shows pointGraph (.named "Locked") (.locked n)
    [.scalar (.int .i32 n), .opaque .secret (.named "Secret")] := by
  refine .parts (ps := [(.scalar (.int .i32), Hand.obj (i32Obj n)), (.named "Secret", Hand.secret)])
    (ms := [.scalar (.int .i32 n), .opaque .secret (.named "Secret")]) (ls := [])
    (node := .struct ["label", "secret"] [("label", .scalar (.int .i32)), ("secret", .named "Secret")]) rfl
    (.struct (.cons ⟨rfl, rfl⟩ (.cons ⟨rfl, rfl⟩ .nil))) ?_ .nil
  exact .scalar rfl rfl (.opaque rfl .nil)

/-- So any visitor is called with these two. -/
example (n : Int) : ∃ k, (Hand.impl handEnv).visit (ε := String) pointGraph (fun l s => match l with
      | .scalar x => (none, s ++ [x])
      | .opaque _ _ => (some "opaque", s)) k (.named "Locked") (.locked n) [] =
    some (.err "opaque" [.int .i32 n]) := by
  obtain ⟨k, hk⟩ := C101_shows _ _ _ _ _ (Hand.locked_shows n) (ε := String) fun l s => match l with
      | .scalar x => (none, s ++ [x])
      | .opaque _ _ => (some "opaque", s)
  exact ⟨k, (hk k (Nat.le_refl _) []).trans rfl⟩

/-- A hand-written `Point` is visited like the derived one. -/
example : ∃ k, (Hand.impl handEnv).visit (ε := Empty) pointGraph (fun l s => match l with
      | .scalar x => (none, s ++ [x])
      | .opaque _ _ => (none, s)) k (.named "Point") (.point 1 2) [] =
    some (.ok [.int .i32 1, .int .i32 2]) := ⟨5, by cbv⟩

example : ∃ k, (Hand.impl handEnv).visit (ε := Empty) pointGraph (fun l (s : Nat) => match l with
      | .scalar _ => (none, s + 1)
      | .opaque _ _ => (none, s)) k (.named "Point") (.point 1 2) 0 =
    some (tryVisit pointGraph (fun l s => match l with
      | .scalar _ => (none, s + 1)
      | .opaque _ _ => (none, s)) (.named "Point")
        (.struct (.derived "Point") [("x", i32Obj 1), ("y", i32Obj 2)]) 0) :=
  (C101_hand_written (Hand.impl handEnv) handEnv _ (Hand.alike handEnv) pointGraph _
    (fun l s => match l with
      | .scalar _ => (none, s + 1)
      | .opaque _ _ => (none, s)) (fun _ _ => rfl) (fun _ _ _ _ _ => rfl) (.named "Point") (.point 1 2) _ rfl 0).1

/-- A `Locked` whose type wants a third field: the two leaves are visited before the panic. -/
def threeGraph : TypeGraph := fun t =>
  if t = .named "Locked" then some (some (.struct ["label", "secret", "more"]
    [("label", .scalar (.int .i32)), ("secret", .named "Secret"), ("more", .named "Secret")]))
  else pointGraph t

example (n : Int) : ∃ k, (Hand.impl handEnv).visit (ε := Empty) threeGraph (fun _ (s : Nat) => (none, s + 1)) k
    (.named "Locked") (.locked n) 0 = some (.panic 2) := by
  refine (C101_panic_iff _ _ _ _ _ _ _).mpr
    ⟨[.scalar (.int .i32 n), .opaque .secret (.named "Secret")], ?_, rfl⟩
  refine .missing (ps := [(.scalar (.int .i32), Hand.obj (i32Obj n)), (.named "Secret", Hand.secret)])
    (node := .struct ["label", "secret", "more"]
      [("label", .scalar (.int .i32)), ("secret", .named "Secret"), ("more", .named "Secret")]) rfl
    (.struct fun i p hp => ?_) (.struct (q := ("more", some (.named "Secret"))) rfl (Or.inr rfl))
    (.scalar rfl rfl (.opaque rfl .nil))
  rcases i with _ | _ | i
  · cases hp; exact ⟨"label", rfl, rfl⟩
  · cases hp; exact ⟨"secret", rfl, rfl⟩
  · simp at hp

/-- With the same type, a visitor that refuses the first leaf is never told of the missing field. -/
example (n : Int) : ∃ k, (Hand.impl handEnv).visit threeGraph (fun _ (s : Nat) => (some "no", s)) k
    (.named "Locked") (.locked n) 0 = some (.err "no" 0) := by
  refine (C101_err_iff _ _ _ _ _ _ _ _).mpr ⟨[.scalar (.int .i32 n)], ?_, rfl⟩
  refine .inside (ps := [(.scalar (.int .i32), Hand.obj (i32Obj n))])
    (node := .struct ["label", "secret", "more"]
      [("label", .scalar (.int .i32)), ("secret", .named "Secret"), ("more", .named "Secret")]) rfl
    (.struct fun i p hp => ?_) (.after (ms := [.scalar (.int .i32 n)]) (.scalar rfl rfl .nil) .nil)
  rcases i with _ | i
  · cases hp; exact ⟨"label", rfl, rfl⟩
  · simp at hp

/-- A number, or a list that is 5 at every position and says it is empty. -/
inductive Fives
  | five
  | all

def Fives.impl : Impl Fives :=
  ⟨fun
    | .five => .scalar (.int .i32 5)
    | .all => .list 0 fun _ => some .five, fun _ => .five⟩

example (n : Nat) (s' : Unit) : Fives.impl.visit (ε := Empty) pointGraph (fun _ s => (none, s)) n
    (.vec (.scalar (.int .i32))) .all () ≠ some (.ok s') :=
  C101_endless _ _ _ _ _ rfl _ 0 _ rfl (fun _ => rfl) n () s'

/-- `Locked` does not have the fields of `Point`. -/
example (n : Nat) (s' : Unit) : (Hand.impl handEnv).visit (ε := Empty) pointGraph (fun _ s => (none, s)) n
    (.named "Point") (.locked 1) () ≠ some (.ok s') :=
  C101_missing_field _ _ _ _ _ _ rfl _ _ _ _ _ rfl "x" (by simp) rfl n () s'

end Mirror
