import Verif.Spec.VisitAny
import Verif.Lemmas.UnseenMore

/-!
# Walking over a value along any type
-/

set_option linter.unusedSimpArgs false

namespace Mirror

variable {g : TypeGraph}

theorem named_steps_iff {o : Obj} {names : List String} {fields : List (String × Ty)} {ps : List (Ty × Obj)} :
    ((namedTypes names fields).map fun q =>
        visitStep q.2 (o.part (o.field q.1) fun _ h => Obj.field_size h)).map plainStep = ps.map some ↔
      AskedNamed o names fields ps := by
  rw [List.map_map, namedTypes, List.map_map]
  have key : ∀ n : String, ∀ p : Ty × Obj,
      ((plainStep ∘ fun q : String × Option Ty => visitStep q.2 (o.part (o.field q.1) fun _ h => Obj.field_size h)) ∘
        fun n => (n, bmGet strCmp n fields)) n = some p ↔ namedType fields n = some p.1 ∧ o.field n = some p.2 := by
    intro n p
    simp only [Function.comp_apply, plain_step, namedType]
    obtain ⟨t, x⟩ := p
    cases h1 : o.field n <;> cases h2 : bmGet strCmp n fields <;> simp [and_comm]
  constructor
  · intro h
    have hl : ps.length = names.length := by simpa using (congrArg List.length h).symm
    refine ⟨hl, fun i n p hn hp => ?_⟩
    have := congrArg (fun l => l[i]?) h
    simp only [List.getElem?_map, hn, hp, Option.map_some, Option.some.injEq] at this
    exact (key n p).mp this
  · rintro ⟨hl, h⟩
    apply List.ext_getElem?
    intro i
    simp only [List.getElem?_map]
    cases hn : names[i]? with
    | none =>
      have : ps[i]? = none := by rw [List.getElem?_eq_none_iff] at hn ⊢; omega
      simp [this]
    | some n =>
      have hi := (List.getElem?_eq_some_iff.mp hn).1
      have hp := List.getElem?_eq_getElem (l := ps) (i := i) (by omega)
      simp only [hp, Option.map_some, Option.some.injEq]
      exact (key n _).mpr (h i n _ hn hp)

theorem pos_steps_iff {o : Obj} {fields : List Ty} {ps : List (Ty × Obj)} :
    (fields.mapIdx fun i t =>
        visitStep (some t) (o.part (o.fieldAt i) fun _ h => Obj.fieldAt_size h)).map plainStep = ps.map some ↔
      AskedPos o fields ps := by
  constructor
  · intro h
    have at_ : ∀ i : Nat, (fields[i]?.map fun t => (o.fieldAt i).map fun x => (t, x)) = ps[i]?.map some := by
      intro i
      have := congrArg (fun l => l[i]?) h
      simp only [List.getElem?_map, List.getElem?_mapIdx, Option.map_map] at this
      rw [← this]
      cases fields[i]? with
      | none => rfl
      | some t => simp only [Option.map_some, Function.comp_apply, plain_step]; cases o.fieldAt i <;> rfl
    constructor
    · apply List.ext_getElem?
      intro i
      have := at_ i
      rw [List.getElem?_map]
      cases hf : fields[i]? with
      | none => rw [hf] at this; cases hp : ps[i]? <;> simp_all
      | some t =>
        rw [hf] at this
        cases hp : ps[i]? with
        | none => simp [hp] at this
        | some p =>
          simp only [hp, Option.map_some, Option.some.injEq] at this ⊢
          cases hx : o.fieldAt i with
          | none => simp [hx] at this
          | some x => simp [hx] at this; rw [← this]
    · intro i p hp
      have := at_ i
      rw [hp] at this
      cases hf : fields[i]? with
      | none => simp [hf] at this
      | some t =>
        simp only [hf, Option.map_some, Option.some.injEq] at this
        cases hx : o.fieldAt i with
        | none => simp [hx] at this
        | some x => simp [hx] at this; rw [← this]
  · rintro ⟨rfl, h⟩
    apply List.ext_getElem?
    intro i
    simp only [List.getElem?_map, List.getElem?_mapIdx]
    cases hp : ps[i]? with
    | none => rfl
    | some p => simp [plain_step, h i p hp]

theorem elem_steps (o : Obj) (t : Ty) :
    (o.posIter.attach.map fun x => (some (t, ⟨x.1, Obj.posIter_size x.2⟩) : Option (Ty × o.Part))).map plainStep =
      (o.posIter.map fun x => (t, x)).map some := by
  simp only [List.map_map, Function.comp_def, plainStep, Option.map_some]
  exact List.attach_map_val (l := o.posIter) (f := fun x => some (t, x))

theorem entry_steps (o : Obj) (k v : Ty) :
    (o.mapIter.attach.flatMap fun p => [(some (k, ⟨p.1.1, (Obj.mapIter_size p.2).1⟩) : Option (Ty × o.Part)),
        some (v, ⟨p.1.2, (Obj.mapIter_size p.2).2⟩)]).map plainStep =
      (o.mapIter.flatMap fun p => [(k, p.1), (v, p.2)]).map some := by
  simp only [List.map_flatMap, List.map_cons, List.map_nil, plainStep, Option.map_some]
  exact attach_flatMap _ fun p : Obj × Obj => [some (k, p.1), some (v, p.2)]

theorem map_some_inj {α : Type} {l m : List α} (h : l.map some = m.map some) : l = m :=
  (List.map_inj_right fun _ _ h => Option.some.inj h).mp h

/-- The steps of a visit are the parts the type asks for. -/
theorem steps_iff {o : Obj} {node : TypeNode} {ps : List (Ty × Obj)} (h1 : ∀ k, node ≠ .scalar k)
    (h2 : node ≠ .opaque) : (visitSteps g o node).map plainStep = ps.map some ↔ AskedOf g o node ps := by
  have no : ∀ {ps : List (Ty × Obj)}, ([none] : List (Option (Ty × o.Part))).map plainStep ≠ ps.map some := by
    intro ps h
    rcases ps with _ | ⟨p, r⟩ <;> simp [plainStep] at h
  cases node with
  | scalar k => exact absurd rfl (h1 k)
  | «opaque» => exact absurd rfl h2
  | struct names fields =>
    rw [visitSteps]
    split
    · next hk => rw [named_steps_iff]; exact ⟨.struct _ _ _ hk, fun h => by cases h; assumption⟩
    · next hk => exact ⟨fun h => absurd h no, fun h => by cases h; exact absurd ‹_› hk⟩
  | tupleStruct fields =>
    rw [visitSteps]
    split
    · next hk => rw [pos_steps_iff]; exact ⟨.tupleStruct _ _ hk, fun h => by cases h; assumption⟩
    · next hk => exact ⟨fun h => absurd h no, fun h => by cases h; exact absurd ‹_› hk⟩
  | tuple fields =>
    rw [visitSteps]
    split
    · next hk => rw [pos_steps_iff]; exact ⟨.tuple _ _ hk, fun h => by cases h; assumption⟩
    · next hk => exact ⟨fun h => absurd h no, fun h => by cases h; exact absurd ‹_› hk⟩
  | enum vs =>
    rw [visitSteps]
    cases hn : o.variantName with
    | none =>
      refine ⟨fun h => absurd h no, fun h => ?_⟩
      cases h <;> simp_all
    | some n =>
      simp only [Option.bind_some]
      cases hf : findVariant vs n with
      | none =>
        refine ⟨fun h => absurd h no, fun h => ?_⟩
        cases h <;> simp_all
      | some vn =>
        cases vn with
        | struct m names fields =>
          simp only [named_steps_iff]
          refine ⟨.enumS vs n m names fields ps hn hf, fun h => ?_⟩
          cases h <;> simp_all
        | tuple m fields =>
          simp only [pos_steps_iff]
          refine ⟨.enumT vs n m fields ps hn hf, fun h => ?_⟩
          cases h <;> simp_all
        | unit m =>
          constructor
          · intro h
            rcases ps with _ | ⟨p, r⟩
            · exact .enumU vs n m hn hf
            · simp at h
          · intro h
            cases h <;> simp_all
  | list t =>
    rw [visitSteps]
    split
    · next hk =>
      rw [elem_steps]
      exact ⟨fun h => map_some_inj h ▸ .list _ hk.1 hk.2, fun h => by cases h; rfl⟩
    · next hk => exact ⟨fun h => absurd h no, fun h => by cases h; exact absurd ⟨‹_›, ‹_›⟩ hk⟩
  | array t n =>
    rw [visitSteps]
    split
    · next hk =>
      rw [elem_steps]
      exact ⟨fun h => map_some_inj h ▸ .array _ _ hk.1 hk.2, fun h => by cases h; rfl⟩
    · next hk => exact ⟨fun h => absurd h no, fun h => by cases h; exact absurd ⟨‹_›, ‹_›⟩ hk⟩
  | map k v =>
    rw [visitSteps]
    split
    · next hk =>
      rw [entry_steps]
      exact ⟨fun h => map_some_inj h ▸ .map _ _ hk.1 hk.2.1 hk.2.2, fun h => by cases h; rfl⟩
    · next hk => exact ⟨fun h => absurd h no, fun h => by cases h; exact absurd ⟨‹_›, ‹_›, ‹_›⟩ hk⟩

/-- One step, without the proof that it visits a part. -/
def stepRun {σ ε : Type} (g : TypeGraph) (v : Visitor σ ε) (st : Option (Ty × Obj)) (s : σ) : Visited σ ε :=
  match st with
  | none => .panic s
  | some (t, x) => tryVisit g v t x s

theorem tryVisit_steps {σ ε : Type} {id : Ty} {node : TypeNode} (hn : g.node id = some node)
    (h1 : ∀ k, node ≠ .scalar k) (h2 : node ≠ .opaque) (v : Visitor σ ε) (o : Obj) (s : σ) :
    tryVisit g v id o s = visitLoop (stepRun g v) ((visitSteps g o node).map plainStep) s := by
  rw [tryVisit_loop hn h1 h2, visitLoop_map]
  refine visitLoop_congr (fun st _ s => ?_) s
  rcases st with _ | ⟨t, x⟩ <;> rfl

theorem AskedOf.node {o : Obj} {node : TypeNode} {ps : List (Ty × Obj)} (h : AskedOf g o node ps) :
    (∀ k, node ≠ .scalar k) ∧ node ≠ .opaque := by
  cases h <;> simp

/-- Along a type that asks for nothing the value does not have, the visit is a run over the leaves. -/
theorem Walks.run {id : Ty} {o : Obj} {l : List Leaf} (h : Walks g id o l) :
    ∀ (σ ε : Type) (v : Visitor σ ε) (s : σ), tryVisit g v id o s = runVisit v l s := by
  induction h with
  | scalar id k o a hn hs =>
    intro σ ε v s
    rw [tryVisit, hn, hs]
    exact visitLeaf_run v _ s
  | «opaque» id o hn =>
    intro σ ε v s
    rw [tryVisit, hn]
    exact visitLeaf_run v _ s
  | parts id o node ps ls hn ha hl _ ih =>
    intro σ ε v s
    rw [tryVisit_steps hn ha.node.1 ha.node.2, (steps_iff ha.node.1 ha.node.2).mpr ha]
    refine visitLoop_run (f := fun {σ ε} v st s => stepRun g v st s) (as := ps.map some) (ls := ls) ?_ σ ε v s
    rw [List.forall₂_map_left_iff, List.forall₂_iff_get]
    refine ⟨hl.symm, fun i h1 h2 => ?_⟩
    exact ih i _ _ (List.getElem?_eq_getElem h1) (List.getElem?_eq_getElem h2)

theorem visitSteps_size {o : Obj} {node : TypeNode} {p : Ty × Obj}
    (h : some p ∈ (visitSteps g o node).map plainStep) : sizeOf p.2 < sizeOf o := by
  obtain ⟨st, _, hst⟩ := List.mem_map.mp h
  rcases st with _ | ⟨t, x⟩
  · cases hst
  · cases hst; exact x.2

/-- A visit that comes to its end has found everything the type asks for. -/
theorem walks_of_ok {σ ε : Type} {v : Visitor σ ε} {id : Ty} {o : Obj} {s s' : σ}
    (h : tryVisit g v id o s = .ok s') : ∃ l, Walks g id o l := by
  induction o using Obj.ind generalizing id s s' with
  | h o ih =>
    cases hn : g.node id with
    | none => rw [tryVisit, hn] at h; cases h
    | some node =>
      by_cases h1 : ∃ k, node = .scalar k
      · obtain ⟨k, rfl⟩ := h1
        cases ho : o.asScalar with
        | none => rw [tryVisit, hn, ho] at h; cases h
        | some a => exact ⟨_, .scalar id k o a hn ho⟩
      · by_cases h2 : node = .opaque
        · subst h2; exact ⟨_, .opaque id o hn⟩
        · have h1' : ∀ k, node ≠ .scalar k := fun k hk => h1 ⟨k, hk⟩
          rw [tryVisit_steps hn h1' h2] at h
          have hall := visitLoop_ok h
          have hps : ∃ ps : List (Ty × Obj), (visitSteps g o node).map plainStep = ps.map some := by
            have : ∀ l : List (Option (Ty × Obj)), none ∉ l → ∃ ps : List (Ty × Obj), l = ps.map some := by
              intro l
              induction l with
              | nil => exact fun _ => ⟨[], rfl⟩
              | cons a r ihl =>
                intro hno
                obtain ⟨ps, hps⟩ := ihl fun hm => hno (List.mem_cons_of_mem _ hm)
                cases a with
                | none => exact absurd (List.mem_cons_self ..) hno
                | some p => exact ⟨p :: ps, by rw [hps]; rfl⟩
            refine this _ fun hm => ?_
            obtain ⟨_, _, hc⟩ := hall none hm
            cases hc
          obtain ⟨ps, hps⟩ := hps
          have hw : ∀ p ∈ ps, ∃ l, Walks g p.1 p.2 l := by
            intro p hp
            have hm : some p ∈ (visitSteps g o node).map plainStep := by
              rw [hps]; exact List.mem_map_of_mem hp
            obtain ⟨s₁, s₂, hok⟩ := hall _ hm
            exact ih p.2 (visitSteps_size hm) hok
          have hls : ∃ ls : List (List Leaf), List.Forall₂ (fun (p : Ty × Obj) l => Walks g p.1 p.2 l) ps ls := by
            clear hps h hall
            induction ps with
            | nil => exact ⟨[], .nil⟩
            | cons p r ihr =>
              obtain ⟨l, hl⟩ := hw p (List.mem_cons_self ..)
              obtain ⟨ls, hls⟩ := ihr fun q hq => hw q (List.mem_cons_of_mem _ hq)
              exact ⟨l :: ls, .cons hl hls⟩
          obtain ⟨ls, hls⟩ := hls
          refine ⟨ls.flatten, .parts id o node ps ls hn ((steps_iff h1' h2).mp hps) hls.length_eq.symm ?_⟩
          intro i p l hp hl
          obtain ⟨l', hl', hr⟩ := forall2_left hls hp
          rw [hl] at hl'; cases hl'; exact hr

theorem runVisit_record (l s : List Leaf) :
    runVisit (ε := Empty) (fun a (s : List Leaf) => (none, s ++ [a])) l s = .ok (s ++ l) := by
  induction l generalizing s with
  | nil => simp [runVisit]
  | cons a r ih => simp [runVisit, ih]

theorem Walks.unique {id : Ty} {o : Obj} {l l' : List Leaf} (h : Walks g id o l) (h' : Walks g id o l') : l = l' := by
  have a := h.run (List Leaf) Empty (fun a s => (none, s ++ [a])) []
  have b := h'.run (List Leaf) Empty (fun a s => (none, s ++ [a])) []
  rw [a, runVisit_record, runVisit_record] at b
  simpa using b

end Mirror
