import Verif.Spec.ImplDebug
import Verif.Lemmas.ImplFrom
import Verif.Lemmas.Containers

/-!
# Lemmas: `reflect_debug` on hand-written implementations
-/

namespace Mirror

section
variable {α β : Type}

theorem gap_nil {f : Nat → Option α} : UpToFirstGap f [] ↔ f 0 = none := by
  simp [UpToFirstGap]

theorem gap_cons {f : Nat → Option α} {x : α} {l : List α} :
    UpToFirstGap f (x :: l) ↔ f 0 = some x ∧ UpToFirstGap (fun i => f (i + 1)) l := by
  constructor
  · rintro ⟨h1, h2⟩
    exact ⟨h1 0 (by simp), fun i hi => h1 (i + 1) (by simpa using hi), h2⟩
  · rintro ⟨h0, h1, h2⟩
    refine ⟨fun i hi => ?_, h2⟩
    cases i with
    | zero => exact h0
    | succ i => exact h1 i (by simpa using hi)

theorem gap_unique {f : Nat → Option α} {l l' : List α} (h : UpToFirstGap f l) (h' : UpToFirstGap f l') :
    l = l' := by
  induction l generalizing f l' with
  | nil =>
    rw [gap_nil] at h
    cases l' with
    | nil => rfl
    | cons y r => rw [gap_cons, h] at h'; cases h'.1
  | cons x l ih =>
    rw [gap_cons] at h
    cases l' with
    | nil => rw [gap_nil, h.1] at h'; cases h'
    | cons y r =>
      rw [gap_cons] at h'
      have hxy := h.1.symm.trans h'.1
      cases hxy
      rw [ih h.2 h'.2]

theorem gap_rel {S : α → β → Prop} {f : Nat → Option α} {g : Nat → Option β}
    (hr : ∀ i, Option.Rel S (f i) (g i)) {l : List α} (h : UpToFirstGap f l) :
    ∃ l', UpToFirstGap g l' ∧ List.Forall₂ S l l' := by
  induction l generalizing f g with
  | nil =>
    rw [gap_nil] at h
    have := hr 0
    rw [h] at this
    refine ⟨[], gap_nil.mpr ?_, .nil⟩
    revert this
    cases g 0 with
    | none => intro; rfl
    | some y => intro hh; cases hh
  | cons x l ih =>
    rw [gap_cons] at h
    obtain ⟨l', h1, h2⟩ := ih (fun i => hr (i + 1)) h.2
    have h0 := hr 0
    rw [h.1] at h0
    cases hg : g 0 with
    | none => rw [hg] at h0; cases h0
    | some y =>
      rw [hg] at h0
      cases h0 with
      | some hxy => exact ⟨y :: l', gap_cons.mpr ⟨hg, h1⟩, .cons hxy h2⟩

theorem drain_gap {next : Nat → Option α} {n i : Nat} {l : List α} (h : drain next n i = some l) :
    UpToFirstGap (fun j => next (i + j)) l := by
  induction n generalizing i l with
  | zero => cases h
  | succ n ih =>
    simp only [drain] at h
    cases hn : next i with
    | none => rw [hn] at h; cases h; exact gap_nil.mpr hn
    | some x =>
      rw [hn] at h
      obtain ⟨r, hr, rfl⟩ := Option.map_eq_some_iff.mp h
      refine gap_cons.mpr ⟨hn, ?_⟩
      have := ih hr
      simpa only [Nat.add_assoc, Nat.add_comm 1] using this

theorem gap_drain {next : Nat → Option α} {n i : Nat} {l : List α} (h : UpToFirstGap (fun j => next (i + j)) l)
    (hn : l.length < n) : drain next n i = some l := by
  induction n generalizing i l with
  | zero => cases hn
  | succ n ih =>
    simp only [drain]
    cases l with
    | nil =>
      have h0 : next i = none := gap_nil.mp h
      rw [h0]
    | cons x r =>
      obtain ⟨h0, h1⟩ := gap_cons.mp h
      have h0 : next i = some x := h0
      rw [h0]
      have := ih (i := i + 1) (l := r) (by simpa only [Nat.add_assoc, Nat.add_comm 1] using h1) (by simpa using hn)
      simp only [this, Option.map_some]

theorem drain_iff {next : Nat → Option α} {l : List α} :
    (∃ n, drain next n 0 = some l) ↔ UpToFirstGap next l := by
  constructor
  · rintro ⟨n, h⟩
    simpa using drain_gap h
  · intro h
    exact ⟨l.length + 1, gap_drain (by simpa using h) (Nat.lt_succ_self _)⟩

theorem drain_map (f : Nat → Option α) (g : α → β) (n : Nat) :
    ∀ i, drain (fun i => (f i).map g) n i = (drain f n i).map (List.map g) := by
  induction n with
  | zero => intro i; rfl
  | succ n ih =>
    intro i
    simp only [drain]
    cases f i with
    | none => rfl
    | some x =>
      simp only [Option.map_some, ih]
      cases drain f n (i + 1) <;> rfl

end

section
variable {A : Type}

theorem fieldNamed_eq (nameAt : Nat → Option String) (fieldAt : Nat → Option A) :
    namedItem nameAt fieldAt = fieldNamed nameAt fieldAt := by
  funext i
  unfold namedItem fieldNamed
  cases nameAt i with
  | none => rfl
  | some n => cases fieldAt i <;> rfl

theorem debugNamedOf_all (l : List (String × A)) :
    debugNamedOf (l.map fun p => VFieldOf.struct p.1 p.2) = some l := by
  induction l with
  | nil => rfl
  | cons p l ih => simp only [List.map_cons, debugNamedOf, ih]; rfl

theorem debugPosOf_all (l : List A) : debugPosOf (l.map VFieldOf.tuple) = some l := by
  induction l with
  | nil => rfl
  | cons p l ih => simp only [List.map_cons, debugPosOf, ih]; rfl

theorem drain_variant_struct (nameAt : Nat → Option String) (fieldAt : Nat → Option A) (v : String) (n : Nat) :
    (drain (variantItem .struct nameAt fieldAt) n 0).map (fun l => (debugNamedOf l).map (DbgOf.struct v)) =
      (drain (fieldNamed nameAt fieldAt) n 0).map fun l => some (DbgOf.struct v l) := by
  have : variantItem .struct nameAt fieldAt =
      fun i => (fieldNamed nameAt fieldAt i).map fun p => VFieldOf.struct p.1 p.2 := by
    funext i; rw [← fieldNamed_eq]; rfl
  rw [this, drain_map]
  cases drain (fieldNamed nameAt fieldAt) n 0 with
  | none => rfl
  | some l => simp only [Option.map_some, debugNamedOf_all]

theorem drain_variant_tuple (nameAt : Nat → Option String) (fieldAt : Nat → Option A) (v : String) (n : Nat) :
    (drain (variantItem .tuple nameAt fieldAt) n 0).map (fun l => (debugPosOf l).map (DbgOf.tuple v)) =
      (drain fieldAt n 0).map fun l => some (DbgOf.tuple v l) := by
  have : variantItem .tuple nameAt fieldAt = fun i => (fieldAt i).map VFieldOf.tuple := rfl
  rw [this, drain_map]
  cases drain fieldAt n 0 with
  | none => rfl
  | some l => simp only [Option.map_some, debugPosOf_all]

/-- The parts it needs are those up to the first gap. -/
theorem drain_some {α : Type} {next : Nat → Option α} {n : Nat} {c : List α → DbgOf A} {d : DbgOf A}
    (h : (drain next n 0).map (fun l => some (c l)) = some (some d)) :
    ∃ l, UpToFirstGap next l ∧ d = c l := by
  obtain ⟨l, hl, he⟩ := Option.map_eq_some_iff.mp h
  cases he
  exact ⟨l, drain_iff.mp ⟨n, hl⟩, rfl⟩

theorem some_drain {α : Type} {next : Nat → Option α} {c : List α → DbgOf A} {l : List α}
    (h : UpToFirstGap next l) {n : Nat} (hn : l.length < n) :
    (drain next n 0).map (fun l => some (c l)) = some (some (c l)) := by
  rw [gap_drain (by simpa using h) hn]
  rfl

theorem Impl.prints_of {I : Impl A} {nm : A → String} {n : Nat} {a : A} {d : DbgOf A}
    (h : I.reflectDebug nm n a = some (some d)) : I.Prints nm a d := by
  unfold Impl.reflectDebug at h
  split at h
  · next hv => rw [fieldNamed_eq] at h; obtain ⟨l, hl, rfl⟩ := drain_some h; exact .struct hv hl
  · next hv => obtain ⟨l, hl, rfl⟩ := drain_some h; exact .tupleStruct hv hl
  · next hv => obtain ⟨l, hl, rfl⟩ := drain_some h; exact .tuple hv hl
  · next hv => rw [drain_variant_struct] at h; obtain ⟨l, hl, rfl⟩ := drain_some h; exact .enumStruct hv hl
  · next hv => rw [drain_variant_tuple] at h; obtain ⟨l, hl, rfl⟩ := drain_some h; exact .enumTuple hv hl
  · next hv => cases h; exact .enumUnit hv
  · next hv => obtain ⟨l, hl, rfl⟩ := drain_some h; exact .array hv hl
  · next hv => obtain ⟨l, hl, rfl⟩ := drain_some h; exact .list hv hl
  · next hv => obtain ⟨l, hl, rfl⟩ := drain_some h; exact .map hv hl
  · next hv => cases h; exact .scalar hv
  · next hv => cases h; exact .opaque hv

theorem Impl.Prints.runs {I : Impl A} {nm : A → String} {a : A} {d : DbgOf A} (h : I.Prints nm a d) :
    ∃ m, ∀ n, m ≤ n → I.reflectDebug nm n a = some (some d) := by
  unfold Impl.reflectDebug
  cases h with
  | @struct _ _ _ _ l hv hl =>
    refine ⟨l.length + 1, fun n hn => ?_⟩
    rw [hv]; dsimp only; rw [fieldNamed_eq]
    exact some_drain (c := DbgOf.struct (nm a)) hl hn
  | @tupleStruct _ _ l hv hl =>
    exact ⟨l.length + 1, fun n hn => by rw [hv]; exact some_drain (c := DbgOf.tuple (nm a)) hl hn⟩
  | @tuple _ _ l hv hl => exact ⟨l.length + 1, fun n hn => by rw [hv]; exact some_drain (c := DbgOf.tuple "") hl hn⟩
  | @enumStruct _ _ _ _ _ l hv hl =>
    refine ⟨l.length + 1, fun n hn => ?_⟩
    rw [hv]; dsimp only; rw [drain_variant_struct]
    exact some_drain (c := DbgOf.struct _) hl hn
  | @enumTuple _ _ _ _ _ l hv hl =>
    refine ⟨l.length + 1, fun n hn => ?_⟩
    rw [hv]; dsimp only; rw [drain_variant_tuple]
    exact some_drain (c := DbgOf.tuple _) hl hn
  | enumUnit hv => exact ⟨0, fun n _ => by rw [hv]⟩
  | @array _ _ l hv hl => exact ⟨l.length + 1, fun n hn => by rw [hv]; exact some_drain (c := DbgOf.list) hl hn⟩
  | @list _ _ l hv hl => exact ⟨l.length + 1, fun n hn => by rw [hv]; exact some_drain (c := DbgOf.list) hl hn⟩
  | @map _ _ _ l hv hl => exact ⟨l.length + 1, fun n hn => by rw [hv]; exact some_drain (c := DbgOf.map) hl hn⟩
  | scalar hv => exact ⟨0, fun n _ => by rw [hv]⟩
  | «opaque» hv => exact ⟨0, fun n _ => by rw [hv]⟩

theorem Impl.reflectDebug_no_panic (I : Impl A) (nm : A → String) (n : Nat) (a : A) :
    I.reflectDebug nm n a ≠ some none := by
  have key : ∀ {α : Type} (x : Option (List α)) (c : List α → DbgOf A),
      x.map (fun l => some (c l)) ≠ some none := by
    intro α x c h
    cases x <;> cases h
  intro h
  unfold Impl.reflectDebug at h
  split at h <;>
    first
    | exact key _ _ h
    | (rw [drain_variant_struct] at h; exact key _ _ h)
    | (rw [drain_variant_tuple] at h; exact key _ _ h)
    | cases h

theorem Impl.Prints.unique {I : Impl A} {nm : A → String} {a : A} {d d' : DbgOf A} (h : I.Prints nm a d)
    (h' : I.Prints nm a d') : d = d' := by
  obtain ⟨m, hm⟩ := h.runs
  obtain ⟨m', hm'⟩ := h'.runs
  have := (hm (max m m') (le_max_left ..)).symm.trans (hm' (max m m') (le_max_right ..))
  cases this
  rfl

end

theorem Impl.Prints.alike {A B : Type} {I : Impl A} {J : Impl B} {R : A → B → Prop} (hIJ : I.Alike J R)
    {nm : A → String} {nm' : B → String} {a : A} {b : B} (hab : R a b) (hn : nm a = nm' b) {d : DbgOf A}
    (h : I.Prints nm a d) : ∃ d', J.Prints nm' b d' ∧ DbgOf.Same R d d' := by
  have hv := hIJ.view a b hab
  generalize hw : J.view b = w at hv
  have named : ∀ {nameAt : Nat → Option String} {f : Nat → Option A} {g : Nat → Option B},
      (∀ i, Option.Rel R (f i) (g i)) → ∀ i, Option.Rel (fun p q => p.1 = q.1 ∧ R p.2 q.2)
        (fieldNamed nameAt f i) (fieldNamed nameAt g i) := by
    intro nameAt f g hfg i
    rw [← fieldNamed_eq, ← fieldNamed_eq]
    exact namedItem_rel hfg i
  cases h with
  | struct hva hl =>
    rw [hva] at hv
    cases hv with
    | struct _ hg =>
      obtain ⟨l', h1, h2⟩ := gap_rel (named hg) hl
      exact ⟨_, .struct hw h1, hn ▸ .struct h2⟩
  | tupleStruct hva hl =>
    rw [hva] at hv
    cases hv with
    | tupleStruct hg =>
      obtain ⟨l', h1, h2⟩ := gap_rel hg hl
      exact ⟨_, .tupleStruct hw h1, hn ▸ .tuple h2⟩
  | tuple hva hl =>
    rw [hva] at hv
    cases hv with
    | tuple hg =>
      obtain ⟨l', h1, h2⟩ := gap_rel hg hl
      exact ⟨_, .tuple hw h1, .tuple h2⟩
  | enumStruct hva hl =>
    rw [hva] at hv
    cases hv with
    | enum _ hg =>
      obtain ⟨l', h1, h2⟩ := gap_rel (named hg) hl
      exact ⟨_, .enumStruct hw h1, .struct h2⟩
  | enumTuple hva hl =>
    rw [hva] at hv
    cases hv with
    | enum _ hg =>
      obtain ⟨l', h1, h2⟩ := gap_rel hg hl
      exact ⟨_, .enumTuple hw h1, .tuple h2⟩
  | enumUnit hva =>
    rw [hva] at hv
    cases hv with
    | enum _ _ => exact ⟨_, .enumUnit hw, .text⟩
  | array hva hl =>
    rw [hva] at hv
    cases hv with
    | array hg =>
      obtain ⟨l', h1, h2⟩ := gap_rel hg hl
      exact ⟨_, .array hw h1, .list h2⟩
  | list hva hl =>
    rw [hva] at hv
    cases hv with
    | list hg =>
      obtain ⟨l', h1, h2⟩ := gap_rel hg hl
      exact ⟨_, .list hw h1, .list h2⟩
  | map hva hl =>
    rw [hva] at hv
    cases hv with
    | map _ hg =>
      obtain ⟨l', h1, h2⟩ := gap_rel hg hl
      exact ⟨_, .map hw h1, .map h2⟩
  | scalar hva =>
    rw [hva] at hv
    cases hv with
    | scalar => exact ⟨_, .scalar hw, .scalar⟩
  | «opaque» hva =>
    rw [hva] at hv
    cases hv with
    | «opaque» => exact ⟨_, .opaque hw, hn ▸ .text⟩

/-! ## Derived and built-in values -/

theorem posIter_gap {o : Obj} (hk : o.kind = .tupleStruct ∨ o.kind = .tuple ∨ o.kind = .list ∨
    o.kind = .array ∨ o.variantKind = some .tuple) : UpToFirstGap o.fieldAt o.posIter :=
  ⟨fun _ hi => posIter_fieldAt hk hi.le, by rw [posIter_fieldAt hk le_rfl]; simp⟩

theorem namedIter_gap {o : Obj} (hk : o.kind = .struct ∨ o.variantKind = some .struct) :
    UpToFirstGap (fieldNamed o.nameAt o.fieldAt) o.namedIter :=
  ⟨fun _ hi => (namedIter_at hk hi.le).symm, by
    rw [show fieldNamed o.nameAt o.fieldAt o.namedIter.length = _ from (namedIter_at hk le_rfl).symm]; simp⟩

theorem debugNamed_all (l : List (String × Obj)) :
    debugNamed (l.map fun p => VField.struct p.1 p.2) = some l := by
  induction l with
  | nil => rfl
  | cons p l ih => simp only [List.map_cons, debugNamed, ih]; rfl

theorem debugPos_all (l : List Obj) : debugPos (l.map VField.tuple) = some l := by
  induction l with
  | nil => rfl
  | cons p l ih => simp only [List.map_cons, debugPos, ih]; rfl

theorem Obj.impl_prints (E : Env) (nm : Obj → String) (o : Obj) :
    ∃ d, Mirror.reflectDebug nm o = some d ∧ (Obj.impl E).Prints nm o d.calls := by
  cases o with
  | scalar s => exact ⟨.scalar s, rfl, .scalar rfl⟩
  | nonzero k n => exact ⟨.scalar (.int k n), rfl, .scalar rfl⟩
  | struct tag fs => exact ⟨_, rfl, .struct rfl (namedIter_gap (Or.inl rfl))⟩
  | tupleStruct tag fs => exact ⟨_, rfl, .tupleStruct rfl (posIter_gap (Or.inl rfl))⟩
  | tuple tag fs => exact ⟨_, rfl, .tuple rfl (posIter_gap (Or.inr (Or.inl rfl)))⟩
  | enumS tag v fs =>
    refine ⟨.struct v (Obj.enumS tag v fs).namedIter, ?_, .enumStruct rfl (namedIter_gap (Or.inr rfl))⟩
    simp only [Mirror.reflectDebug, Obj.kind, Obj.variantKind, Obj.variantName, Obj.variantIter, debugNamed_all]
    rfl
  | enumT tag v fs =>
    refine ⟨.tuple v (Obj.enumT tag v fs).posIter, ?_,
      .enumTuple rfl (posIter_gap (Or.inr (Or.inr (Or.inr (Or.inr rfl)))))⟩
    simp only [Mirror.reflectDebug, Obj.kind, Obj.variantKind, Obj.variantName, Obj.variantIter, debugPos_all]
    rfl
  | enumU tag v => exact ⟨.text v, rfl, .enumUnit rfl⟩
  | vec t xs => exact ⟨_, rfl, .list rfl (posIter_gap (Or.inr (Or.inr (Or.inl rfl))))⟩
  | array t xs => exact ⟨_, rfl, .array rfl (posIter_gap (Or.inr (Or.inr (Or.inr (Or.inl rfl)))))⟩
  | map kt vt kvs => exact ⟨_, rfl, .map rfl ⟨fun _ _ => rfl, by simp [Dbg.calls, Obj.mapIter]⟩⟩
  | hidden x => exact ⟨_, rfl, .opaque rfl⟩

/-! ## When it ends -/

theorem gap_exists {α : Type} {f : Nat → Option α} : (∃ l, UpToFirstGap f l) ↔ ∃ i, f i = none := by
  constructor
  · rintro ⟨l, h⟩
    exact ⟨_, h.2⟩
  · rintro ⟨i, hi⟩
    induction i generalizing f with
    | zero => exact ⟨[], gap_nil.mpr hi⟩
    | succ i ih =>
      cases h0 : f 0 with
      | none => exact ⟨[], gap_nil.mpr h0⟩
      | some x =>
        obtain ⟨l, hl⟩ := ih (f := fun i => f (i + 1)) hi
        exact ⟨x :: l, gap_cons.mpr ⟨h0, hl⟩⟩

theorem fieldNamed_none {A : Type} {nameAt : Nat → Option String} {fieldAt : Nat → Option A} {i : Nat} :
    fieldNamed nameAt fieldAt i = none ↔ nameAt i = none ∨ fieldAt i = none := by
  unfold fieldNamed
  cases nameAt i <;> cases fieldAt i <;> simp

theorem named_gap_exists {A : Type} {nameAt : Nat → Option String} {fieldAt : Nat → Option A} :
    (∃ l, UpToFirstGap (fieldNamed nameAt fieldAt) l) ↔ ∃ i, nameAt i = none ∨ fieldAt i = none := by
  rw [gap_exists]
  simp only [fieldNamed_none]

theorem Impl.prints_iff_ends {A : Type} {I : Impl A} {nm : A → String} {a : A} :
    (∃ d, I.Prints nm a d) ↔ (I.view a).Ends := by
  constructor
  · rintro ⟨d, h⟩
    cases h with
    | struct hv hl => rw [hv]; exact named_gap_exists.mp ⟨_, hl⟩
    | tupleStruct hv hl => rw [hv]; exact gap_exists.mp ⟨_, hl⟩
    | tuple hv hl => rw [hv]; exact gap_exists.mp ⟨_, hl⟩
    | enumStruct hv hl => rw [hv]; exact named_gap_exists.mp ⟨_, hl⟩
    | enumTuple hv hl => rw [hv]; exact gap_exists.mp ⟨_, hl⟩
    | enumUnit hv => rw [hv]; trivial
    | array hv hl => rw [hv]; exact gap_exists.mp ⟨_, hl⟩
    | list hv hl => rw [hv]; exact gap_exists.mp ⟨_, hl⟩
    | map hv hl => rw [hv]; exact gap_exists.mp ⟨_, hl⟩
    | scalar hv => rw [hv]; trivial
    | «opaque» hv => rw [hv]; trivial
  · intro h
    cases hv : I.view a with
    | scalar s => exact ⟨_, .scalar hv⟩
    | struct len f g n => rw [hv] at h; obtain ⟨l, hl⟩ := named_gap_exists.mpr h; exact ⟨_, .struct hv hl⟩
    | tupleStruct len g => rw [hv] at h; obtain ⟨l, hl⟩ := gap_exists.mpr h; exact ⟨_, .tupleStruct hv hl⟩
    | tuple len g => rw [hv] at h; obtain ⟨l, hl⟩ := gap_exists.mpr h; exact ⟨_, .tuple hv hl⟩
    | enum v k len f g n =>
      rw [hv] at h
      cases k with
      | struct => obtain ⟨l, hl⟩ := named_gap_exists.mpr h; exact ⟨_, .enumStruct hv hl⟩
      | tuple => obtain ⟨l, hl⟩ := gap_exists.mpr h; exact ⟨_, .enumTuple hv hl⟩
      | unit => exact ⟨_, .enumUnit hv⟩
    | array len g => rw [hv] at h; obtain ⟨l, hl⟩ := gap_exists.mpr h; exact ⟨_, .array hv hl⟩
    | list len g => rw [hv] at h; obtain ⟨l, hl⟩ := gap_exists.mpr h; exact ⟨_, .list hv hl⟩
    | map len g e => rw [hv] at h; obtain ⟨l, hl⟩ := gap_exists.mpr h; exact ⟨_, .map hv hl⟩
    | «opaque» => exact ⟨_, .opaque hv⟩


end Mirror
