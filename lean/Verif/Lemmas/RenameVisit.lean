import Verif.Spec.Rename
import Verif.Spec.Visit
import Verif.Lemmas.Rename

/-! # `try_visit` on a graph with other ids -/

set_option linter.unusedSimpArgs false

namespace Mirror

variable {r : Ty → Ty} {P : Ty → Prop} {g g' : TypeGraph}

theorem findVariant_rename (vs : List VariantNode) (n : String) :
    findVariant (vs.map (·.rename r)) n = (findVariant vs n).map (·.rename r) := by
  simp [findVariant, List.find?_map, Function.comp_def, VariantNode.rename_name]

theorem visitStep_rename {o : Obj} (t : Option Ty) (x : Option o.Part) :
    visitStep (t.map r) x = (visitStep t x).map fun p => (r p.1, p.2) := by
  cases t <;> cases x <;> rfl

theorem visitSteps_rename (h : Renames r P g g') {i : Ty} (hi : P i) {n : TypeNode} (hn : g.node i = some n)
    (o : Obj) :
    visitSteps g' o (n.rename r) = (visitSteps g o n).map (Option.map fun p => (r p.1, p.2)) := by
  have hsome : ∀ j ∈ n.ids, (g'.node (r j)).isSome = (g.node j).isSome := by
    intro j hj
    rw [h.node j (h.closed i n hi hn j hj)]; simp
  have hnamed : ∀ (names : List String) (fields : List (String × Ty)),
      ((namedTypes names (fields.map fun p => (p.1, r p.2))).map fun q =>
        visitStep q.2 (o.part (o.field q.1) fun _ h => Obj.field_size h)) =
      ((namedTypes names fields).map fun q =>
        visitStep q.2 (o.part (o.field q.1) fun _ h => Obj.field_size h)).map
          (Option.map fun p => (r p.1, p.2)) := by
    intro names fields
    simp only [namedTypes_rename, List.map_map, Function.comp_def, visitStep_rename]
  have hpos : ∀ (fields : List Ty),
      ((fields.map r).mapIdx fun i t =>
        visitStep (some t) (o.part (o.fieldAt i) fun _ h => Obj.fieldAt_size h)) =
      (fields.mapIdx fun i t =>
        visitStep (some t) (o.part (o.fieldAt i) fun _ h => Obj.fieldAt_size h)).map
          (Option.map fun p => (r p.1, p.2)) := by
    intro fields
    refine List.ext_getElem? fun k => ?_
    simp only [List.getElem?_mapIdx, List.getElem?_map, Option.map_map]
    cases fields[k]? with
    | none => rfl
    | some t => exact congrArg some (visitStep_rename (some t) _)
  cases n with
  | scalar k => rfl
  | «opaque» => rfl
  | struct names fields =>
    simp only [TypeNode.rename, visitSteps]
    split
    · exact hnamed names fields
    · rfl
  | tupleStruct fields =>
    simp only [TypeNode.rename, visitSteps]
    split
    · exact hpos fields
    · rfl
  | tuple fields =>
    simp only [TypeNode.rename, visitSteps]
    split
    · exact hpos fields
    · rfl
  | enum vs =>
    simp only [TypeNode.rename, visitSteps]
    cases hv : o.variantName with
    | none => rfl
    | some vn =>
      simp only [Option.bind_some, findVariant_rename]
      cases findVariant vs vn with
      | none => rfl
      | some m =>
        cases m with
        | struct _ names fields => exact hnamed names fields
        | tuple _ fields => exact hpos fields
        | unit _ => rfl
  | list t =>
    simp only [TypeNode.rename, visitSteps, hsome t (by simp [TypeNode.ids])]
    split
    · simp only [List.map_map, Function.comp_def, Option.map_some]
    · rfl
  | array t len =>
    simp only [TypeNode.rename, visitSteps, hsome t (by simp [TypeNode.ids])]
    split
    · simp only [List.map_map, Function.comp_def, Option.map_some]
    · rfl
  | map k v =>
    simp only [TypeNode.rename, visitSteps, hsome k (by simp [TypeNode.ids]), hsome v (by simp [TypeNode.ids])]
    split
    · simp only [List.map_flatMap, List.map_cons, List.map_nil, Option.map_some]
    · rfl

/-- The types recursed on are ids of the node. -/
theorem visitSteps_ids {o : Obj} {n : TypeNode} {t : Ty} {x : o.Part}
    (h : some (t, x) ∈ visitSteps g o n) : t ∈ n.ids := by
  have hstep : ∀ {a : Option Ty} {b : Option o.Part}, some (t, x) = visitStep a b → a = some t := by
    intro a b h
    cases a <;> cases b <;> simp [visitStep] at h
    simp [h.1]
  have hnamed : ∀ {names : List String} {fields : List (String × Ty)},
      some (t, x) ∈ ((namedTypes names fields).map fun q =>
        visitStep q.2 (o.part (o.field q.1) fun _ h => Obj.field_size h)) → t ∈ fields.map (·.2) := by
    intro names fields h
    obtain ⟨q, hq, he⟩ := List.mem_map.mp h
    have h2 := hstep he.symm
    simp only [namedTypes, List.mem_map] at hq
    obtain ⟨n, _, rfl⟩ := hq
    exact bmGet_snd_mem h2
  have hpos : ∀ {fields : List Ty}, some (t, x) ∈ (fields.mapIdx fun i t =>
      visitStep (some t) (o.part (o.fieldAt i) fun _ h => Obj.fieldAt_size h)) → t ∈ fields := by
    intro fields h
    obtain ⟨i, hi, he⟩ := List.mem_mapIdx.mp h
    have h2 := hstep he.symm
    rw [← Option.some.inj h2]
    exact List.getElem_mem hi
  cases n with
  | scalar k => cases h
  | «opaque» => cases h
  | struct names fields =>
    simp only [visitSteps] at h
    split at h
    · exact hnamed h
    · simp at h
  | tupleStruct fields =>
    simp only [visitSteps] at h
    split at h
    · exact hpos h
    · simp at h
  | tuple fields =>
    simp only [visitSteps] at h
    split at h
    · exact hpos h
    · simp at h
  | enum vs =>
    simp only [visitSteps] at h
    have hm : ∀ m, o.variantName.bind (findVariant vs) = some m → m ∈ vs := by
      intro m hm
      obtain ⟨_, _, hf⟩ := Option.bind_eq_some_iff.mp hm
      exact List.mem_of_find?_eq_some hf
    split at h
    · simp at h
    · rename_i he; exact List.mem_flatMap.mpr ⟨_, hm _ he, hnamed h⟩
    · rename_i he; exact List.mem_flatMap.mpr ⟨_, hm _ he, hpos h⟩
    · cases h
  | list j =>
    simp only [visitSteps] at h
    split at h
    · obtain ⟨y, _, he⟩ := List.mem_map.mp h
      cases he; simp [TypeNode.ids]
    · simp at h
  | array j len =>
    simp only [visitSteps] at h
    split at h
    · obtain ⟨y, _, he⟩ := List.mem_map.mp h
      cases he; simp [TypeNode.ids]
    · simp at h
  | map k v =>
    simp only [visitSteps] at h
    split at h
    · obtain ⟨y, _, he⟩ := List.mem_flatMap.mp h
      simp only [List.mem_cons, List.not_mem_nil, or_false, Option.some.injEq, Prod.mk.injEq] at he
      rcases he with ⟨rfl, _⟩ | ⟨rfl, _⟩ <;> simp [TypeNode.ids]
    · simp at h

theorem visitLoop_map_congr {α β σ ε : Type} {f : α → σ → Visited σ ε} {f' : β → σ → Visited σ ε} {m : β → α} :
    ∀ {l : List β}, (∀ b ∈ l, ∀ s, f (m b) s = f' b s) → ∀ s, visitLoop f (l.map m) s = visitLoop f' l s
  | [], _, s => rfl
  | b :: l, h, s => by
    simp only [List.map_cons, visitLoop]
    rw [h b (by simp) s]
    cases f' b s with
    | ok s' => exact visitLoop_map_congr (fun b hb => h b (by simp [hb])) s'
    | err e s' => rfl
    | panic s' => rfl

/-- Two graphs that differ in their ids only are visited alike: the same calls in the same order, the same
end. -/
theorem tryVisit_rename {σ ε : Type} (h : Renames r P g g') (v : Visitor σ ε) :
    ∀ (o : Obj) (i : Ty) (s : σ), P i →
      tryVisit g' v (r i) o s = tryVisit g (fun l => v (l.rename r)) i o s := by
  intro o
  generalize hs : sizeOf o = k
  induction k using Nat.strong_induction_on generalizing o with
  | _ k ih =>
    intro i s hi
    rw [tryVisit, tryVisit, h.node i hi]
    cases hn : g.node i with
    | none => rfl
    | some n =>
      have loop : visitLoop (fun st s =>
            match st with
            | none => Visited.panic s
            | some (t, x) => tryVisit g' v t x.1 s) (visitSteps g' o (n.rename r)) s =
          visitLoop (fun st s =>
            match st with
            | none => Visited.panic s
            | some (t, x) => tryVisit g (fun l => v (l.rename r)) t x.1 s) (visitSteps g o n) s := by
        rw [visitSteps_rename h hi hn]
        refine visitLoop_map_congr (fun b hb s => ?_) s
        cases b with
        | none => rfl
        | some p =>
          obtain ⟨t, x⟩ := p
          exact ih (sizeOf x.1) (by have := x.2; omega) x.1 rfl t s
            (h.closed i n hi hn t (visitSteps_ids hb))
      cases n with
      | scalar k => rfl
      | «opaque» => rfl
      | _ => exact loop

end Mirror
