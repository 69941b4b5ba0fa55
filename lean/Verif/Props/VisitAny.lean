import Verif.Lemmas.VisitCopy
import Verif.Props.StandIn

set_option linter.unusedSimpArgs false

/-!
# `try_visit` along any type (C90)
-/

namespace Mirror

variable {E : Env} {g : TypeGraph}

/-- C90. If the value has everything the type asks for, the visitor is called on each of the leaves the walk comes
to, in order, as long as it accepts, and nothing else happens. -/
theorem C90_visits {id : Ty} {o : Obj} {l : List Leaf} (h : Walks g id o l) {σ ε : Type} (v : Visitor σ ε) (s : σ) :
    tryVisit g v id o s = runVisit v l s :=
  h.run σ ε v s

/-- C90. If it does not, the visit panics, unless the visitor fails first. -/
theorem C90_panics {id : Ty} {o : Obj} (h : ¬ ∃ l, Walks g id o l) {σ ε : Type} (v : Visitor σ ε)
    (hv : ∀ a s, (v a s).1 = none) (s : σ) : ∃ s', tryVisit g v id o s = .panic s' := by
  obtain ⟨l, p, hp⟩ := tryVisit_plan g id o
  obtain ⟨s', hs'⟩ := runVisit_accepts hv l s
  have hrun := hp σ ε v s
  rw [hs'] at hrun
  cases p with
  | true => exact ⟨s', hrun⟩
  | false => exact absurd (walks_of_ok hrun) h

/-- C90, exactly: for some visitor the visit panics, if and only if the type asks for something the value does not
have. -/
theorem C90_panics_iff (id : Ty) (o : Obj) :
    (∃ (σ ε : Type) (v : Visitor σ ε) (s s' : σ), tryVisit g v id o s = .panic s') ↔ ¬ ∃ l, Walks g id o l := by
  constructor
  · rintro ⟨σ, ε, v, s, s', hp⟩ ⟨l, h⟩
    rw [C90_visits h] at hp
    exact runVisit_not_panic v l s s' hp
  · intro h
    obtain ⟨s', hs'⟩ := C90_panics h (σ := Unit) (ε := Empty) (fun _ s => (none, s)) (fun _ _ => rfl) ()
    exact ⟨_, _, _, _, s', hs'⟩

/-- C90: there is only one walk. -/
theorem C90_unique {id : Ty} {o : Obj} {l l' : List Leaf} (h : Walks g id o l) (h' : Walks g id o l') : l = l' :=
  h.unique h'

/-- C90: along its own type a value has everything the type asks for, if and only if nowhere inside it a skipped
position comes before a reflected one; and the walk comes to the leaves of the value. -/
theorem C90_own (hD : DeclsOK E) {fuel t d} (h : describe E fuel t = some d) {x : Obj} (hx : HasTy E t x) :
    ((∃ l, Walks d.graph d.root x l) ↔ x.NoGaps) ∧
    ∀ l, Walks d.graph d.root x l → Leaves E t x l := by
  have hi : (∃ l, Walks d.graph d.root x l) ↔ x.NoGaps := by
    have h1 := C41_panics_iff hD h hx
    rw [C90_panics_iff] at h1
    exact not_iff_not.mp h1
  refine ⟨hi, fun l hl => ?_⟩
  obtain ⟨l', h1, h2⟩ := C41_visits_leaves hD h hx (hi.mp ⟨l, hl⟩)
  have a := C90_visits hl (σ := List Leaf) (ε := Empty) (fun a s => (none, s ++ [a])) []
  rw [h2, runVisit_record, runVisit_record] at a
  have : l' = l := by simpa using a
  exact this ▸ h1

/-- C90: the type of a scalar takes a scalar of any kind. The callback is chosen by the value, not by the type. -/
theorem C90_scalar_any {id : Ty} {k : ScalarKind} (h : g.node id = some (.scalar k)) (a : Scalar) {σ ε : Type}
    (v : Visitor σ ε) (s : σ) : tryVisit g v id (.scalar a) s = runVisit v [.scalar a] s :=
  C90_visits (.scalar id k _ a h rfl) v s

/-- C90: what a struct type does not ask for is not looked at. Two structs with the same values in the fields the type
names are visited alike, whatever other fields they have and in whatever order. -/
theorem C90_only_named {id : Ty} {names : List String} {fields : List (String × Ty)}
    (h : g.node id = some (.struct names fields)) {x y : Obj} (hx : x.kind = .struct) (hy : y.kind = .struct)
    (hxy : ∀ n ∈ names, x.field n = y.field n) {σ ε : Type} (v : Visitor σ ε) (s : σ) :
    tryVisit g v id x s = tryVisit g v id y s := by
  rw [tryVisit_steps h (by simp) (by simp), tryVisit_steps h (by simp) (by simp), visitSteps, visitSteps, if_pos hx,
    if_pos hy, namedTypes, List.map_map, List.map_map, List.map_map, List.map_map]
  congr 1
  refine List.map_congr_left fun n hn => ?_
  simp only [Function.comp_apply, plain_step, hxy n hn]

/-- C90: the same for tuple structs and tuples and the positions of the type. -/
theorem C90_only_positions {id : Ty} {fields : List Ty} {x y : Obj}
    (h : g.node id = some (.tupleStruct fields) ∧ x.kind = .tupleStruct ∧ y.kind = .tupleStruct ∨
      g.node id = some (.tuple fields) ∧ x.kind = .tuple ∧ y.kind = .tuple)
    (hxy : ∀ i < fields.length, x.fieldAt i = y.fieldAt i) {σ ε : Type} (v : Visitor σ ε) (s : σ) :
    tryVisit g v id x s = tryVisit g v id y s := by
  have key : (fields.mapIdx fun i t => visitStep (some t) (x.part (x.fieldAt i) fun _ h => Obj.fieldAt_size h)).map
      plainStep =
      (fields.mapIdx fun i t => visitStep (some t) (y.part (y.fieldAt i) fun _ h => Obj.fieldAt_size h)).map
        plainStep := by
    apply List.ext_getElem?
    intro i
    simp only [List.getElem?_map, List.getElem?_mapIdx]
    cases hi : fields[i]? with
    | none => rfl
    | some t =>
      have := hxy i (List.getElem?_eq_some_iff.mp hi).1
      simp only [Option.map_some, plain_step, this]
  rcases h with ⟨h, hx, hy⟩ | ⟨h, hx, hy⟩
  all_goals
    rw [tryVisit_steps h (by simp) (by simp), tryVisit_steps h (by simp) (by simp), visitSteps, visitSteps, if_pos hx,
      if_pos hy, key]

/-- C90: the `to_value` of a value can be walked along the type of the value, if and only if there is no fixed-size
array on the way. In particular a value that cannot be visited itself, because a skipped position comes before a
reflected one, can be visited as a copy. -/
theorem C90_copy (hD : DeclsOK E) (hO : OrdLaws E) (hF : KeysFaithful E) {fuel t d} (h : describe E fuel t = some d)
    {x : Obj} (hx : HasTy E t x) : (∃ l, Walks d.graph d.root x.toValue.toObj l) ↔ ¬ MeetsArray E t x := by
  obtain ⟨node, hn⟩ := descriptor_closed hD h .root
  have hr := descriptor_root hD h
  have hx' : HasTy E d.root x := by rw [hr]; exact hasTy_unbox.mpr hx
  have := (walks_copy hD hO hF (describe_graphOK hD h) hn hx').1
  rw [hr] at this ⊢
  rw [meetsArray_unbox] at this
  exact this

/-- C90: the walk then comes to the copies of the leaves of the value, in another order only within maps. -/
theorem C90_copy_leaves (hD : DeclsOK E) (hO : OrdLaws E) (hF : KeysFaithful E) {fuel t d}
    (h : describe E fuel t = some d) {x : Obj} (hx : HasTy E t x) {l l' : List Leaf}
    (hw : Walks d.graph d.root x.toValue.toObj l) (hl : Leaves E t x l') : l.Perm (l'.map Leaf.copied) := by
  obtain ⟨node, hn⟩ := descriptor_closed hD h .root
  have hr := descriptor_root hD h
  have hx' : HasTy E d.root x := by rw [hr]; exact hasTy_unbox.mpr hx
  exact (walks_copy hD hO hF (describe_graphOK hD h) hn hx').2 l l' hw (hr ▸ leaves_toUnbox hl)


/-! ## Non-vacuity -/

/-- A visitor that accepts and records what it is called with. -/
def recordLeaves : Visitor (List Leaf) Empty := fun a s => (none, s ++ [a])

/-- A `StructValue` with the fields of `Point` in another order, of other kinds, and a field more. -/
def demoLoose : Obj :=
  .struct (.dyn ["z", "y", "x"]) [("x", .scalar (.bool true)), ("y", .scalar (.string "y")), ("z", .scalar (.bool false))]

/-- Along `Point` it is visited, in the order of the type, by the callbacks of the kinds of the values; a `StructValue`
without `y` makes the visit panic after the first leaf. -/
example : ∃ d, describe demoEnv 10 (.named "Point") = some d ∧
    Walks d.graph d.root demoLoose [.scalar (.bool true), .scalar (.string "y")] ∧
    tryVisit d.graph recordLeaves d.root demoLoose [] = .ok [.scalar (.bool true), .scalar (.string "y")] ∧
    tryVisit d.graph recordLeaves d.root (.struct (.dyn ["x"]) [("x", .scalar (.bool true))]) [] =
      .panic [.scalar (.bool true)] := by
  have hok : ∀ d, describe demoEnv 10 (.named "Point") = some d →
      tryVisit d.graph recordLeaves d.root demoLoose [] = .ok [.scalar (.bool true), .scalar (.string "y")] := by
    intro d hd
    cases hd
    cbv
  refine ⟨_, rfl, ?_, hok _ rfl, by cbv⟩
  obtain ⟨l, hl⟩ := walks_of_ok (hok _ rfl)
  have := C90_visits hl recordLeaves []
  rw [hok _ rfl, show runVisit recordLeaves l [] = .ok ([] ++ l) from runVisit_record l []] at this
  simp only [List.nil_append, Visited.ok.injEq] at this
  rw [this]; exact hl

/-- `Shifted` cannot be visited, because of its misplaced skip; its copy can. -/
example : ¬ shifted.NoGaps ∧ ∃ d, describe shiftedEnv 10 (.named "Shifted") = some d ∧
    (¬ ∃ l, Walks d.graph d.root shifted l) ∧ ∃ l, Walks d.graph d.root shifted.toValue.toObj l := by
  have hg : ¬ shifted.NoGaps := fun h => by
    have := (h.here.1 _ _ rfl) 0 1 _ _ rfl rfl
    revert this; decide
  refine ⟨hg, _, rfl, ?_, ?_⟩
  · rw [(C90_own shifted_declsOK (fuel := 10) (t := .named "Shifted") rfl shifted_hasTy).1]; exact hg
  · exact walks_of_ok (v := recordLeaves) (s := []) (s' := [.scalar (.int .i32 5), .scalar (.string "a")])
      (by cbv)

/-- A value with an array in it: it is visited, and its copy is not. -/
example : HasTy demoEnv (.vec (.array (.scalar .bool) 1)) (.vec (.array (.scalar .bool) 1) [.array (.scalar .bool) [.scalar (.bool true)]]) ∧
    MeetsArray demoEnv (.vec (.array (.scalar .bool) 1)) (.vec (.array (.scalar .bool) 1) [.array (.scalar .bool) [.scalar (.bool true)]]) ∧
    ¬ MeetsArray demoEnv (.named "Secret") demoSecret := by
  refine ⟨.vec _ _ ?_, .part _ _ _ (.array (.scalar .bool) 1, .array (.scalar .bool) [.scalar (.bool true)]) (.vec _ _)
    (by simp) (.here (.scalar .bool) [.scalar (.bool true)]), ?_⟩
  · intro x hx
    simp only [List.mem_cons, List.not_mem_nil, or_false] at hx
    subst hx
    refine HasTy.array (E := demoEnv) (.scalar .bool) [.scalar (.bool true)] fun y hy => ?_
    simp only [List.mem_cons, List.not_mem_nil, or_false] at hy
    subst hy
    exact .scalar' rfl
  · rw [← C90_copy demo_declsOK demo_ordLaws demo_keysFaithful (fuel := 10) (t := .named "Secret") rfl demoSecret_hasTy]
    exact walks_of_ok (v := recordLeaves) (s := [])
      (s' := [.scalar (.int .u8 7), .scalar (.int .u8 1), .scalar (.int .u8 2)]) (by cbv)

end Mirror
