import Verif.Lemmas.Unseen
import Verif.Lemmas.Visit
import Verif.Lemmas.Path
import Verif.Model.Debug

/-!
# Skipped fields and the operations that read: `at`, `reflect_debug`, `try_visit`
-/

set_option linter.unusedSimpArgs false

namespace Mirror

/-! ## `at` -/

theorem atKey_reset {E : Env} (hO : OrdLaws E) (hK : KeysShown E) {o : Obj} (ho : o.OK E) {k : Key}
    (hk : ∀ v, k = .get v → v.WF) : o.reset.atKey E k = (o.atKey E k).map Obj.reset := by
  cases k with
  | named n =>
    simp only [Obj.atKey, reset_kind, reset_variantKind, reset_field]
    split <;> (try split) <;> rfl
  | numbered n =>
    simp only [Obj.atKey, reset_kind, reset_variantKind, reset_fieldAt]
    split <;> (try split) <;> rfl
  | get v =>
    have h := mapGet_reset hO hK ho (Value.WF.ok (E := E) (hk v rfl))
    rw [toObj_reset] at h
    simp only [Obj.atKey, reset_kind, reset_fieldAt, h]
    split <;> (try cases valueToUsize v) <;> rfl
  | «variant» v =>
    simp only [Obj.atKey, reset_kind, reset_variantName]
    split <;> (try split) <;> rfl

theorem atGo_reset {E : Env} (hO : OrdLaws E) (hK : KeysShown E) : ∀ (p : List Key) {o : Obj}, o.OK E →
    KeyPath.WF p → atGo E o.reset p = (atGo E o p).map Obj.reset
  | [], _, _, _ => rfl
  | k :: r, o, ho, hp => by
    rw [atGo.eq_def, atGo.eq_def E o]
    dsimp only
    rw [atKey_reset hO hK ho fun v h => hp v (by simp [h])]
    cases hx : o.atKey E k with
    | none => rfl
    | some x =>
      cases r with
      | nil => rfl
      | cons k' r' =>
        exact atGo_reset hO hK (k' :: r') (OK_atKey ho hx) fun v h => hp v (by simp only [List.mem_cons] at h ⊢; exact .inr h)

theorem atPath_reset {E : Env} (hO : OrdLaws E) (hK : KeysShown E) {o : Obj} (ho : o.OK E) {p : KeyPath}
    (hp : p.WF) : atPath E o.reset p = (atPath E o p).map Obj.reset := by
  simp only [atPath]
  split
  · rfl
  · exact atGo_reset hO hK p ho hp

/-! ## `reflect_debug` -/

/-- The calls on the formatter with every field, element, key and value in them replaced. -/
def Dbg.reset : Dbg → Dbg
  | .struct n fs => .struct n (fs.map fun p => (p.1, p.2.reset))
  | .tuple n fs => .tuple n (fs.map Obj.reset)
  | .list xs => .list (xs.map Obj.reset)
  | .map kvs => .map (kvs.map resetPair)
  | .scalar s => .scalar s
  | .text s => .text s

/-- A field of a variant with its skipped parts replaced. -/
def VField.reset : VField → VField
  | .struct n x => .struct n x.reset
  | .tuple x => .tuple x.reset

theorem reset_variantIter (o : Obj) : o.reset.variantIter = o.variantIter.map VField.reset := by
  simp only [Obj.variantIter, reset_variantKind, reset_namedIter, reset_posIter]
  split <;> simp [VField.reset, Function.comp_def]

theorem debugNamed_reset : ∀ l : List VField, debugNamed (l.map VField.reset) =
    (debugNamed l).map fun fs => fs.map fun p => (p.1, p.2.reset)
  | [] => rfl
  | .struct n x :: r => by
    simp only [List.map_cons, VField.reset, debugNamed, debugNamed_reset r]
    cases debugNamed r <;> rfl
  | .tuple x :: r => rfl

theorem debugPos_reset : ∀ l : List VField, debugPos (l.map VField.reset) =
    (debugPos l).map fun fs => fs.map Obj.reset
  | [] => rfl
  | .struct n x :: r => rfl
  | .tuple x :: r => by
    simp only [List.map_cons, VField.reset, debugPos, debugPos_reset r]
    cases debugPos r <;> rfl

theorem reset_mapIter (o : Obj) : o.reset.mapIter = o.mapIter.map resetPair := by
  cases o <;> simp [Obj.reset, Obj.mapIter, resetPair]

theorem reflectDebug_reset {nm : Obj → String} {o : Obj} (hn : nm o.reset = nm o) :
    reflectDebug nm o.reset = (reflectDebug nm o).map Dbg.reset := by
  simp only [reflectDebug, reset_kind, reset_variantKind, reset_variantName, reset_namedIter, reset_posIter,
    reset_asScalar, reset_variantIter, debugNamed_reset, debugPos_reset, reset_mapIter, hn]
  split <;> (try split) <;> (try rfl)
  · cases debugNamed o.variantIter <;> rfl
  · cases debugPos o.variantIter <;> rfl
  · cases o.asScalar <;> rfl

/-! ## `try_visit` -/

/-- A step of `try_visit` without the proof that it visits a part. -/
def plainStep {o : Obj} (st : Option (Ty × o.Part)) : Option (Ty × Obj) := st.map fun q => (q.1, q.2.1)

/-- The same with the skipped fields of the part replaced. -/
def resetStep (st : Option (Ty × Obj)) : Option (Ty × Obj) := st.map fun q => (q.1, q.2.reset)

theorem plain_step {o : Obj} (t : Option Ty) (r : Option Obj) (h) :
    plainStep (visitStep t (o.part r h)) = r.bind fun x => t.map fun u => (u, x) := by
  cases r <;> cases t <;> rfl

theorem visitLoop_map {α β σ ε : Type} (f : β → σ → Visited σ ε) (m : α → β) : ∀ (l : List α) (s : σ),
    visitLoop f (l.map m) s = visitLoop (fun a s => f (m a) s) l s
  | [], _ => rfl
  | a :: r, s => by
    simp only [List.map_cons, visitLoop]
    cases f (m a) s <;> simp only [visitLoop_map f m r]

theorem visitLoop_congr {α σ ε : Type} {f g : α → σ → Visited σ ε} : ∀ {l : List α},
    (∀ a ∈ l, ∀ s, f a s = g a s) → ∀ s, visitLoop f l s = visitLoop g l s
  | [], _, _ => rfl
  | a :: r, h, s => by
    simp only [visitLoop, h a (by simp)]
    cases g a s <;> simp only [visitLoop_congr (l := r) fun b hb => h b (by simp [hb])]

theorem attach_flatMap {α β : Type} (l : List α) (f : α → List β) :
    (l.attach.flatMap fun p => f p.1) = l.flatMap f := by
  conv => rhs; rw [← List.attach_map_subtype_val l]
  rw [List.flatMap_map]

theorem steps_reset (g : TypeGraph) (o : Obj) (node : TypeNode) :
    (visitSteps g o.reset node).map plainStep = ((visitSteps g o node).map plainStep).map resetStep := by
  have st : ∀ (t : Option Ty) (r : Option Obj) h h',
      plainStep (visitStep t (o.reset.part (r.map Obj.reset) h)) =
        resetStep (plainStep (visitStep t (o.part r h'))) := by
    intro t r h h'
    rw [plain_step, plain_step]
    cases r <;> cases t <;> rfl
  have named : ∀ l : List (String × Option Ty),
      ((l.map fun q => visitStep q.2 (o.reset.part (o.reset.field q.1) fun _ h => Obj.field_size h)).map plainStep) =
        ((l.map fun q => visitStep q.2 (o.part (o.field q.1) fun _ h => Obj.field_size h)).map plainStep).map resetStep := by
    intro l
    simp only [List.map_map]
    refine List.map_congr_left fun q _ => ?_
    simp only [Function.comp_apply, plain_step, reset_field]
    cases o.field q.1 <;> cases q.2 <;> rfl
  have pos : ∀ l : List Ty,
      ((l.mapIdx fun i t => visitStep (some t) (o.reset.part (o.reset.fieldAt i) fun _ h => Obj.fieldAt_size h)).map plainStep) =
        ((l.mapIdx fun i t => visitStep (some t) (o.part (o.fieldAt i) fun _ h => Obj.fieldAt_size h)).map plainStep).map resetStep := by
    intro l
    apply List.ext_getElem?
    intro i
    simp only [List.getElem?_map, List.getElem?_mapIdx]
    cases l[i]? with
    | none => rfl
    | some t =>
      simp only [Option.map_some, plain_step, reset_fieldAt]
      cases o.fieldAt i <;> rfl
  have elems : ∀ t : Ty,
      ((o.reset.posIter.attach.map fun x => (some (t, ⟨x.1, Obj.posIter_size x.2⟩) : Option (Ty × o.reset.Part))).map plainStep) =
        ((o.posIter.attach.map fun x => (some (t, ⟨x.1, Obj.posIter_size x.2⟩) : Option (Ty × o.Part))).map plainStep).map resetStep := by
    intro t
    simp only [List.map_map, Function.comp_def, plainStep, resetStep, Option.map_some]
    rw [show (o.reset.posIter.attach.map fun x => some (t, x.1)) = o.reset.posIter.map fun x => some (t, x) by
        rw [← List.attach_map_subtype_val (o.reset.posIter), List.map_map]; simp [Function.comp_def],
      show (o.posIter.attach.map fun x => some (t, x.1.reset)) = o.posIter.map fun x => some (t, x.reset) by
        simp, reset_posIter, List.map_map]
    rfl
  cases node <;> simp only [visitSteps, reset_kind, List.map_nil]
  all_goals first
    | rfl
    | (split
       · first
         | exact named _
         | exact pos _
         | exact elems _
         | skip
       · rfl)
    | skip
  case enum vs =>
    rw [reset_variantName]
    cases o.variantName.bind (findVariant vs) with
    | none => rfl
    | some n =>
      cases n with
      | struct _ names fields => exact named _
      | tuple _ fields => exact pos _
      | unit _ => rfl
  case map k v =>
    split
    · simp only [List.map_flatMap, List.map_cons, List.map_nil, plainStep, resetStep, Option.map_some]
      rw [show (o.reset.mapIter.attach.flatMap fun p => [some (k, p.1.1), some (v, p.1.2)]) =
          o.reset.mapIter.flatMap fun p => [some (k, p.1), some (v, p.2)] from
            attach_flatMap _ fun p : Obj × Obj => [some (k, p.1), some (v, p.2)],
        show (o.mapIter.attach.flatMap fun p => [some (k, p.1.1.reset), some (v, p.1.2.reset)]) =
          o.mapIter.flatMap fun p => [some (k, p.1.reset), some (v, p.2.reset)] from
            attach_flatMap _ fun p : Obj × Obj => [some (k, p.1.reset), some (v, p.2.reset)],
        reset_mapIter, List.flatMap_map]
      rfl
    · rfl

theorem tryVisit_reset {σ ε : Type} (g : TypeGraph) {v : Visitor σ ε}
    (hv : ∀ (x : Obj) (t : Ty) (s : σ), v (.opaque x.reset t) s = v (.opaque x t) s) (o : Obj) :
    ∀ (id : Ty) (s : σ), tryVisit g v id o.reset s = tryVisit g v id o s := by
  induction o using Obj.ind with
  | h o ih =>
    intro id s
    cases hn : g.node id with
    | none => rw [tryVisit, tryVisit, hn]
    | some node =>
      by_cases h1 : ∃ k, node = .scalar k
      · obtain ⟨k, rfl⟩ := h1
        rw [tryVisit, tryVisit, hn]
        simp only [reset_asScalar]
      · by_cases h2 : node = .opaque
        · subst h2
          rw [tryVisit, tryVisit, hn]
          simp only [visitLeaf, hv]
        · have h1' : ∀ k, node ≠ .scalar k := fun k h => h1 ⟨k, h⟩
          rw [tryVisit_loop hn h1' h2, tryVisit_loop hn h1' h2]
          let f : Option (Ty × Obj) → σ → Visited σ ε := fun st s =>
            match st with
            | none => .panic s
            | some (t, x) => tryVisit g v t x s
          have e : ∀ (q : Obj) (s : σ), visitLoop (fun st s =>
              match st with
              | none => .panic s
              | some (t, x) => tryVisit g v t x.1 s) (visitSteps g q node) s =
              visitLoop f ((visitSteps g q node).map plainStep) s := by
            intro q s
            rw [visitLoop_map]
            refine visitLoop_congr (fun st _ s => ?_) s
            rcases st with _ | ⟨t, x⟩ <;> rfl
          refine (e o.reset s).trans (Eq.trans ?_ (e o s).symm)
          rw [steps_reset, visitLoop_map]
          refine visitLoop_congr (fun st hst s => ?_) s
          rcases st with _ | ⟨t, x⟩
          · rfl
          · obtain ⟨q, _, hq⟩ := List.mem_map.mp hst
            rcases q with _ | ⟨t', y⟩
            · cases hq
            · cases hq
              exact ih y.1 y.2 _ s

end Mirror
