import Verif.Spec.Panic
import Verif.Lemmas.Sound
import Verif.Lemmas.ReflectEq
import Verif.Lemmas.TypeInfo

set_option linter.unusedSimpArgs false

/-!
# Lemmas about panics
-/

namespace Mirror

variable {E : Env} {S : String → List VariantDef}

theorem holdsSkipped_iff {o : Obj} :
    o.HoldsSkipped E ↔ o.skippedVariant E = true ∨ ∃ y ∈ o.parts, y.HoldsSkipped E := by
  constructor
  · rintro ⟨x, hx, hs⟩
    cases hx with
    | self => exact .inl hs
    | part y _ hy hxy => exact .inr ⟨y, hy, x, hxy, hs⟩
  · rintro (h | ⟨y, hy, x, hx, hs⟩)
    · exact ⟨o, .self o, h⟩
    · exact ⟨x, .part _ _ _ hy hx, hs⟩

theorem Obj.HoldsSkipped.of_part {o y : Obj} (hy : y ∈ o.parts) (h : y.HoldsSkipped E) : o.HoldsSkipped E :=
  holdsSkipped_iff.mpr (.inr ⟨y, hy, h⟩)

theorem Value.toObj_parts {v : Value} {x : Obj} (h : x ∈ v.toObj.parts) : ∃ w : Value, x = w.toObj := by
  cases v <;> simp only [Value.toObj, Obj.parts, visPos, visFields, List.mem_filter, List.mem_map,
    List.mem_append, List.not_mem_nil] at h
  case struct => obtain ⟨p, ⟨⟨q, _, rfl⟩, _⟩, rfl⟩ := h; exact ⟨_, rfl⟩
  case enumS => obtain ⟨p, ⟨⟨q, _, rfl⟩, _⟩, rfl⟩ := h; exact ⟨_, rfl⟩
  case enumT => obtain ⟨⟨q, _, rfl⟩, _⟩ := h; exact ⟨_, rfl⟩
  case tupleStruct => obtain ⟨⟨q, _, rfl⟩, _⟩ := h; exact ⟨_, rfl⟩
  case tuple => obtain ⟨⟨q, _, rfl⟩, _⟩ := h; exact ⟨_, rfl⟩
  case list => obtain ⟨q, _, rfl⟩ := h; exact ⟨_, rfl⟩
  case map =>
    rcases h with ⟨p, ⟨q, _, rfl⟩, rfl⟩ | ⟨p, ⟨q, _, rfl⟩, rfl⟩ <;> exact ⟨_, rfl⟩

theorem Value.toObj_skipped (v : Value) : v.toObj.skippedVariant E = false := by
  cases v <;> simp [Value.toObj, Obj.skippedVariant, Obj.typeOf]

theorem Value.toObj_holds (v : Value) : ¬ v.toObj.HoldsSkipped E := by
  rintro ⟨x, hx, hs⟩
  generalize he : v.toObj = o at hx
  induction hx generalizing v with
  | self => subst he; simp [Value.toObj_skipped] at hs
  | part y o hy _ ih =>
    subst he
    obtain ⟨w, rfl⟩ := Value.toObj_parts hy
    exact ih w rfl

theorem anyMap_vis (fs : List Obj) (f : Obj → Bool) :
    (fs.map fun x => !x.isHidden && f x).any id = (visPos fs).any f := by
  simp [List.any_map, visPos, List.any_filter, Function.comp_def]

theorem anyMap_visFields (fs : List (String × Obj)) (f : Obj → Bool) :
    (fs.map fun p => !p.2.isHidden && f p.2).any id = ((visFields fs).map (·.2)).any f := by
  simp [List.any_map, visFields, List.any_filter, Function.comp_def]

theorem toValuePanics_hidden {x : Obj} (h : x.isHidden = true) : toValuePanics E x = false := by
  cases x <;> simp [Obj.isHidden] at h
  simp [toValuePanics]

theorem toValuePanics_value (v : Value) : toValuePanics E v.toObj = false := by
  generalize hn : sizeOf v.toObj = n
  induction n using Nat.strongRecOn generalizing v with
  | _ n ih =>
    subst hn
    have hx : ∀ w : Value, w.toObj ∈ v.toObj.parts → toValuePanics E w.toObj = false :=
      fun w hw => ih _ (Obj.parts_size hw) w rfl
    cases v with
    | list xs =>
      simp only [Value.toObj, toValuePanics, List.any_map, List.any_eq_false, Function.comp_def, id]
      intro w hw
      have hm : w.toObj ∈ xs.map fun x => x.toObj := List.mem_map.mpr ⟨w, hw, rfl⟩
      simp [hx w (by simpa only [Value.toObj, Obj.parts] using hm)]
    | map kvs =>
      simp only [Value.toObj, toValuePanics, List.any_map, List.any_eq_false, Function.comp_def, id]
      intro w hw
      have hm : (w.1.toObj, w.2.toObj) ∈ kvs.map fun p => (p.1.toObj, p.2.toObj) :=
        List.mem_map.mpr ⟨w, hw, rfl⟩
      simp only [hx w.1 (by
          simp only [Value.toObj, Obj.parts, List.mem_append]
          exact .inl (List.mem_map.mpr ⟨_, hm, rfl⟩)),
        hx w.2 (by
          simp only [Value.toObj, Obj.parts, List.mem_append]
          exact .inr (List.mem_map.mpr ⟨_, hm, rfl⟩))]
      simp
    | _ => simp [Value.toObj, toValuePanics]

theorem any_or_split {α} (l : List α) (f g : α → Bool) :
    (l.any fun p => f p || g p) = (l.any f || l.any g) := by
  rw [Bool.eq_iff_iff]
  simp only [Bool.or_eq_true, List.any_eq_true]
  constructor
  · rintro ⟨p, hp, h | h⟩
    · exact .inl ⟨p, hp, h⟩
    · exact .inr ⟨p, hp, h⟩
  · rintro (⟨p, hp, h⟩ | ⟨p, hp, h⟩)
    · exact ⟨p, hp, .inl h⟩
    · exact ⟨p, hp, .inr h⟩

theorem toValuePanics_parts {E' : Env} {o : Obj} {t : Ty} (h : HasTy E' t o) :
    (∃ v : Value, o = v.toObj) ∨
      toValuePanics E o = (o.skippedVariant E || o.parts.any (toValuePanics E)) := by
  induction h with
  | scalar s => exact .inl ⟨.scalar s, by simp [Value.toObj]⟩
  | nonzero k n h => right; simp [toValuePanics, Obj.skippedVariant, Obj.typeOf, Obj.parts]
  | struct n fds c fs =>
    right
    simp only [toValuePanics, anyMap_visFields, Obj.skippedVariant, Obj.typeOf, Obj.variantName, Obj.parts,
      Bool.false_or]
  | tupleStruct n fds c fs =>
    right
    simp only [toValuePanics, anyMap_vis, Obj.skippedVariant, Obj.typeOf, Obj.variantName, Obj.parts,
      Bool.false_or]
  | enumS n vds c vn fds fs =>
    right
    simp only [toValuePanics, anyMap_visFields, Obj.parts]
  | enumT n vds c vn fds fs =>
    right
    simp only [toValuePanics, anyMap_vis, Obj.parts]
  | enumU n vds c vn => right; simp [toValuePanics, Obj.parts]
  | tuple ts fs =>
    right
    rw [toValuePanics]
    simp only [Obj.skippedVariant, Obj.typeOf, Obj.variantName, Obj.parts, Bool.false_or, visPos,
      List.any_filter, List.any_map, Function.comp_def, id]
    refine List.any_congr rfl fun x => ?_
    cases hx : x.isHidden <;> simp [toValuePanics_hidden, hx]
  | vec t xs => right; simp [toValuePanics, Obj.skippedVariant, Obj.typeOf, Obj.parts, List.any_map, Function.comp_def]
  | array t xs => right; simp [toValuePanics, Obj.skippedVariant, Obj.typeOf, Obj.parts, List.any_map, Function.comp_def]
  | map kt vt kvs =>
    right
    rw [toValuePanics]
    simp only [Obj.skippedVariant, Obj.typeOf, Obj.variantName, Obj.parts, Bool.false_or,
      List.any_append, List.any_map, Function.comp_def, id]
    exact any_or_split kvs _ _
  | box t o h ih => exact ih
  | value v o h e => exact .inl ⟨v, e⟩
  | structValue ns fs o h e => exact .inl ⟨_, e⟩
  | tupleStructValue fs o h e => exact .inl ⟨_, e⟩
  | tupleValue fs o h e => exact .inl ⟨_, e⟩
  | enumValueS v ns fs o h e => exact .inl ⟨_, e⟩
  | enumValueT v fs o h e => exact .inl ⟨_, e⟩
  | enumValueU v o e => exact .inl ⟨_, e⟩

/-- A proper value of some type, or the content of any `Value`, well-formed or not. -/
def Obj.OKV (E : Env) (o : Obj) : Prop := o.OK E ∨ ∃ v : Value, o = v.toObj

theorem Obj.OKV.parts {E : Env} {o x : Obj} (h : o.OKV E) (hx : x ∈ o.parts) : x.OKV E := by
  rcases h with h | ⟨v, rfl⟩
  · exact .inl (h.parts hx)
  · exact .inr (Value.toObj_parts hx)

theorem Obj.OKV.dynVis {E : Env} {o : Obj} (h : o.OKV E) : o.DynVis := by
  rcases h with ⟨t, h⟩ | ⟨v, rfl⟩
  · exact h.dynVis
  · exact v.dynVis

theorem toValuePanics_iffV {E' : Env} {o : Obj} (h : o.OKV E') :
    toValuePanics E o = true ↔ o.HoldsSkipped E := by
  induction o using Obj.ind with
  | h o ih =>
    rcases h with ⟨t, ht⟩ | ⟨v, rfl⟩
    case inr => simp [toValuePanics_value, Value.toObj_holds]
    rcases toValuePanics_parts (E := E) ht with ⟨v, rfl⟩ | he
    · simp [toValuePanics_value, Value.toObj_holds]
    · rw [he, holdsSkipped_iff, Bool.or_eq_true, List.any_eq_true]
      refine or_congr Iff.rfl (exists_congr fun y => ?_)
      constructor
      · rintro ⟨hy, hp⟩
        exact ⟨hy, (ih y (Obj.parts_size hy) (.inl (ht.parts_ok _ hy))).mp hp⟩
      · rintro ⟨hy, hp⟩
        exact ⟨hy, (ih y (Obj.parts_size hy) (.inl (ht.parts_ok _ hy))).mpr hp⟩

theorem toValuePanics_iff {E' : Env} {o : Obj} (h : o.OK E') :
    toValuePanics E o = true ↔ o.HoldsSkipped E := toValuePanics_iffV (.inl h)

/-! ## `from_reflect` -/

theorem loopPanics_true {l : List (Bool × Bool)} (h : loopPanics l = true) : ∃ q ∈ l, q.1 = true := by
  induction l with
  | nil => simp [loopPanics] at h
  | cons q r ih =>
    obtain ⟨a, b⟩ := q
    cases a
    · cases b
      · simp [loopPanics] at h
      · obtain ⟨q, hq, e⟩ := ih (by simpa [loopPanics] using h)
        exact ⟨q, List.mem_cons_of_mem _ hq, e⟩
    · exact ⟨_, List.mem_cons_self, rfl⟩

theorem Ty.HasDynamic.of_comp {t u : Ty} (h : u ∈ t.comps E) (hd : u.HasDynamic E) : t.HasDynamic E := by
  obtain ⟨w, hr, hw⟩ := hd
  exact ⟨w, hr.head h, hw⟩

theorem fromReflectPanics_only {E' : Env} (t : Ty) (o : Obj) (ho : o.OKV E')
    (h : fromReflectPanics E t o = true) : o.HoldsSkipped E ∧ t.HasDynamic E := by
  induction o using Obj.ind generalizing t with
  | h o ihO =>
  generalize hn : sizeOf t = n at *
  induction n using Nat.strongRecOn generalizing t with
  | _ n ihT =>
  subst hn
  have hdv : o.DynVis := ho.dynVis
  have dyn : ∀ {u : Ty}, u.Dynamic → u.HasDynamic E := fun hu => ⟨_, .refl, hu⟩
  have iter : (∃ p ∈ o.namedIter, toValuePanics E p.2 = true) → o.HoldsSkipped E := by
    rintro ⟨p, hp, e⟩
    have := Obj.namedIter_parts hdv hp
    exact .of_part this ((toValuePanics_iffV (ho.parts this)).mp e)
  have pos : (∃ x ∈ o.posIter, toValuePanics E x = true) → o.HoldsSkipped E := by
    rintro ⟨p, hp, e⟩
    have := Obj.posIter_parts hp
    exact .of_part this ((toValuePanics_iffV (ho.parts this)).mp e)
  have named : ∀ {c : Bool} {fds : List FieldDef},
      (∀ fd ∈ fds, fd.skip = false → fd.ty ∈ t.comps E) →
      loopPanics (fds.map fun fd =>
          if fd.skip then (false, true)
          else
            match _h : o.field fd.name with
            | none => (false, false)
            | some v =>
              if !c && v.isTy fd.ty then (false, true)
              else (fromReflectPanics E fd.ty v, (fromReflect E fd.ty v).isSome)) = true →
      o.HoldsSkipped E ∧ t.HasDynamic E := by
    intro c fds hc hl
    obtain ⟨q, hq, e⟩ := loopPanics_true hl
    obtain ⟨fd, hfd, rfl⟩ := List.mem_map.mp hq
    split at e
    · simp at e
    · next hs =>
      split at e
      · simp at e
      · next v hv =>
        split at e
        · simp at e
        · have hp := Obj.field_parts hv
          obtain ⟨h1, h2⟩ := ihO v (Obj.parts_size hp) fd.ty (ho.parts hp) e
          exact ⟨.of_part hp h1, .of_comp (hc fd hfd (by simpa using hs)) h2⟩
  have posn : ∀ {c : Bool} {fds : List FieldDef},
      (∀ fd ∈ fds, fd.skip = false → fd.ty ∈ t.comps E) →
      loopPanics (fds.mapIdx fun i fd =>
          if fd.skip then (false, true)
          else
            match _h : o.fieldAt i with
            | none => (false, false)
            | some v =>
              if !c && v.isTy fd.ty then (false, true)
              else (fromReflectPanics E fd.ty v, (fromReflect E fd.ty v).isSome)) = true →
      o.HoldsSkipped E ∧ t.HasDynamic E := by
    intro c fds hc hl
    obtain ⟨q, hq, e⟩ := loopPanics_true hl
    obtain ⟨i, hi, rfl⟩ := List.mem_mapIdx.mp hq
    split at e
    · simp at e
    · next hs =>
      split at e
      · simp at e
      · next v hv =>
        split at e
        · simp at e
        · have hp := Obj.fieldAt_parts hdv hv
          obtain ⟨h1, h2⟩ := ihO v (Obj.parts_size hp) _ (ho.parts hp) e
          exact ⟨.of_part hp h1, .of_comp (hc _ (List.getElem_mem hi) (by simpa using hs)) h2⟩
  have elems : ∀ {u : Ty} {xs : List Obj}, u ∈ t.comps E → xs = o.parts →
      loopPanics (xs.map fun x => (fromReflectPanics E u x, (fromReflect E u x).isSome)) = true →
      o.HoldsSkipped E ∧ t.HasDynamic E := by
    intro u xs hu hxs hl
    obtain ⟨q, hq, e⟩ := loopPanics_true hl
    obtain ⟨x, hx, rfl⟩ := List.mem_map.mp hq
    have hx' : x ∈ o.parts := hxs ▸ hx
    obtain ⟨h1, h2⟩ := ihO x (Obj.parts_size hx') u (ho.parts hx') e
    exact ⟨.of_part hx' h1, .of_comp hu h2⟩
  rw [fromReflectPanics.eq_def] at h
  split at h
  · simp at h
  · simp at h
  · next n =>
    split at h
    · next fds c hd =>
      split at h
      · exact named (fun fd hfd hs => by
          simp only [Ty.comps, hd]
          exact List.mem_map.mpr ⟨fd, List.mem_filter.mpr ⟨hfd, by simp [hs]⟩, rfl⟩) h
      · simp at h
    · next fds c hd =>
      split at h
      · exact posn (fun fd hfd hs => by
          simp only [Ty.comps, hd]
          exact List.mem_map.mpr ⟨fd, List.mem_filter.mpr ⟨hfd, by simp [hs]⟩, rfl⟩) h
      · simp at h
    · next vds c hd =>
      split at h
      · simp at h
      · next vn hvn =>
        split at h
        · simp at h
        · next vn' fds hf =>
          have hm := List.mem_of_find?_eq_some hf
          exact named (fun fd hfd hs => by
            simp only [Ty.comps, hd]
            refine List.mem_flatMap.mpr ⟨_, hm, ?_⟩
            exact List.mem_map.mpr ⟨fd, List.mem_filter.mpr ⟨hfd, by simp [hs]⟩, rfl⟩) h
        · next vn' fds hf =>
          have hm := List.mem_of_find?_eq_some hf
          exact posn (fun fd hfd hs => by
            simp only [Ty.comps, hd]
            refine List.mem_flatMap.mpr ⟨_, hm, ?_⟩
            exact List.mem_map.mpr ⟨fd, List.mem_filter.mpr ⟨hfd, by simp [hs]⟩, rfl⟩) h
        · simp at h
    · simp at h
  · next ts =>
    split at h
    · obtain ⟨q, hq, e⟩ := loopPanics_true h
      obtain ⟨i, hi, rfl⟩ := List.mem_mapIdx.mp hq
      split at e
      · simp at e
      · next v hv =>
        have hp := Obj.fieldAt_parts hdv hv
        obtain ⟨h1, h2⟩ := ihO v (Obj.parts_size hp) _ (ho.parts hp) e
        exact ⟨.of_part hp h1, .of_comp (by simp only [Ty.comps]; exact List.getElem_mem hi) h2⟩
    · simp at h
  · next u =>
    split at h
    · exact elems (by simp [Ty.comps]) rfl h
    · simp at h
  · next u n =>
    split at h
    · exact elems (by simp [Ty.comps]) rfl h
    · simp at h
  · next kt vt =>
    split at h
    · next kt' vt' kvs =>
      obtain ⟨q, hq, e⟩ := loopPanics_true h
      obtain ⟨l, hl, hq⟩ := List.mem_flatten.mp hq
      obtain ⟨p, hp, rfl⟩ := List.mem_map.mp hl
      have h1 : p.1 ∈ (Obj.map kt' vt' kvs).parts := by
        simp only [Obj.parts, List.mem_append]
        exact .inl (List.mem_map.mpr ⟨_, hp, rfl⟩)
      have h2 : p.2 ∈ (Obj.map kt' vt' kvs).parts := by
        simp only [Obj.parts, List.mem_append]
        exact .inr (List.mem_map.mpr ⟨_, hp, rfl⟩)
      simp only [List.mem_cons, List.not_mem_nil, or_false] at hq
      rcases hq with rfl | rfl
      · obtain ⟨a, b⟩ := ihO _ (Obj.parts_size h1) kt (ho.parts h1) e
        exact ⟨.of_part h1 a, .of_comp (by simp [Ty.comps]) b⟩
      · obtain ⟨a, b⟩ := ihO _ (Obj.parts_size h2) vt (ho.parts h2) e
        exact ⟨.of_part h2 a, .of_comp (by simp [Ty.comps]) b⟩
    · simp at h
  · next u =>
    obtain ⟨a, b⟩ := ihT (sizeOf u) (by simp) u h rfl
    exact ⟨a, .of_comp (by simp [Ty.comps]) b⟩
  · exact ⟨(toValuePanics_iffV ho).mp h, dyn (by trivial)⟩
  · simp only [Bool.and_eq_true, List.any_eq_true] at h
    exact ⟨iter h.2, dyn (by trivial)⟩
  · simp only [Bool.and_eq_true, List.any_eq_true] at h
    exact ⟨pos h.2, dyn (by trivial)⟩
  · simp only [Bool.and_eq_true, List.any_eq_true] at h
    exact ⟨pos h.2, dyn (by trivial)⟩
  · simp only [Bool.and_eq_true, Bool.or_eq_true, List.any_eq_true] at h
    exact ⟨h.2.elim iter pos, dyn (by trivial)⟩

/-! ## `patch` -/

theorem patchMap_only {kt : Ty} {new kvs : List (Obj × Obj)} {b : Bool}
    (h : ((new.map fun p => (p, fun y => patchPanics E y p.2)).foldl
        (fun (s : Bool × List (Obj × Obj)) q =>
          match fromReflect E kt q.1.1 with
          | none => (s.1 || fromReflectPanics E kt q.1.1, s.2)
          | some k =>
            (s.1 || fromReflectPanics E kt q.1.1 || (bmGet (E.kcmp kt) k s.2).any q.2,
              bmModify (E.kcmp kt) k (fun y => patch E y q.1.2) s.2)) (b, kvs)).1 = true) :
    b = true ∨ ∃ p ∈ new, fromReflectPanics E kt p.1 = true ∨ ∃ y, patchPanics E y p.2 = true := by
  induction new generalizing b kvs with
  | nil => exact .inl h
  | cons p r ih =>
    simp only [List.map_cons, List.foldl_cons] at h
    split at h
    · rcases ih h with h | ⟨q, hq, h⟩
      · rcases (Bool.or_eq_true _ _).mp h with h | h
        · exact .inl h
        · exact .inr ⟨p, List.mem_cons_self, .inl h⟩
      · exact .inr ⟨q, List.mem_cons_of_mem _ hq, h⟩
    · rcases ih h with h | ⟨q, hq, h⟩
      · simp only [Bool.or_eq_true, or_assoc] at h
        rcases h with h | h | h
        · exact .inl h
        · exact .inr ⟨p, List.mem_cons_self, .inl h⟩
        · obtain ⟨y, _, hy⟩ := (Option.any_eq_true _ _).mp h
          exact .inr ⟨p, List.mem_cons_self, .inr ⟨y, hy⟩⟩
      · exact .inr ⟨q, List.mem_cons_of_mem _ hq, h⟩

theorem patchPanics_only {E' : Env} (x v : Obj) (hv : v.OKV E') (h : patchPanics E x v = true) :
    v.HoldsSkipped E := by
  induction v using Obj.ind generalizing x with
  | h v ih =>
  have hdv : v.DynVis := hv.dynVis
  have conv : ∀ {t : Ty}, fromReflectPanics E t v = true → v.HoldsSkipped E := fun h =>
    (fromReflectPanics_only _ v hv h).1
  have part : ∀ {y w : Obj}, w ∈ v.parts → patchPanics E y w = true → v.HoldsSkipped E :=
    fun hw hp => .of_part hw (ih _ (Obj.parts_size hw) _ (hv.parts hw) hp)
  have named : ∀ {fs : List (String × Obj)}, (fs.map fun p =>
        if p.2.isHidden then false
        else
          match _h : v.field p.1 with
          | none => false
          | some w => patchPanics E p.2 w).any id = true → v.HoldsSkipped E := by
    intro fs h
    simp only [List.any_map, List.any_eq_true, Function.comp_def, id] at h
    obtain ⟨p, _, h⟩ := h
    split at h
    · simp at h
    · split at h
      · simp at h
      · next w hw => exact part (Obj.field_parts hw) h
  have named' : ∀ {fs : List (String × Obj)}, (fs.map fun p =>
          match _h : v.field p.1 with
          | none => false
          | some w => patchPanics E p.2 w).any id = true → v.HoldsSkipped E := by
    intro fs h
    simp only [List.any_map, List.any_eq_true, Function.comp_def, id] at h
    obtain ⟨p, _, h⟩ := h
    split at h
    · simp at h
    · next w hw => exact part (Obj.field_parts hw) h
  have posn : ∀ {fs : List Obj}, (fs.mapIdx fun i y =>
        if y.isHidden then false
        else
          match _h : v.fieldAt i with
          | none => false
          | some w => patchPanics E y w).any id = true → v.HoldsSkipped E := by
    intro fs h
    obtain ⟨q, hq, e⟩ := List.any_eq_true.mp h
    obtain ⟨i, hi, rfl⟩ := List.mem_mapIdx.mp hq
    simp only [id] at e
    split at e
    · simp at e
    · split at e
      · simp at e
      · next w hw => exact part (Obj.fieldAt_parts hdv hw) e
  have posn' : ∀ {fs : List Obj}, (fs.mapIdx fun i y =>
          match _h : v.fieldAt i with
          | none => false
          | some w => patchPanics E y w).any id = true → v.HoldsSkipped E := by
    intro fs h
    obtain ⟨q, hq, e⟩ := List.any_eq_true.mp h
    obtain ⟨i, hi, rfl⟩ := List.mem_mapIdx.mp hq
    simp only [id] at e
    split at e
    · simp at e
    · next w hw => exact part (Obj.fieldAt_parts hdv hw) e
  rw [patchPanics.eq_def] at h
  split at h
  · simp at h
  · simp at h
  · simp at h
  · split at h
    · exact named h
    · simp at h
  · split at h
    · exact posn h
    · simp at h
  · split at h
    · exact posn' h
    · simp at h
  · split at h
    · simp at h
    · split at h
      · rcases (Bool.or_eq_true _ _).mp h with h | h
        · exact conv h
        · exact named ((Bool.and_eq_true _ _).mp h).2
      · simp at h
  · split at h
    · simp at h
    · split at h
      · rcases (Bool.or_eq_true _ _).mp h with h | h
        · exact conv h
        · exact posn ((Bool.and_eq_true _ _).mp h).2
      · simp at h
  · split at h
    · simp at h
    · exact conv ((Bool.and_eq_true _ _).mp h).2
  · split at h
    · split at h
      · exact named' h
      · exact conv h
    · simp at h
  · split at h
    · split at h
      · exact posn' h
      · exact conv h
    · simp at h
  · split at h
    · split at h
      · simp at h
      · exact conv h
    · simp at h
  · split at h
    · exact posn' h
    · simp at h
  · split at h
    · exact posn' h
    · simp at h
  · split at h
    · next kt vt kvs kt' vt' new =>
      rcases patchMap_only h with h | ⟨p, hp, h⟩
      · simp at h
      · have h1 : p.1 ∈ (Obj.map kt' vt' new).parts := by
          simp only [Obj.parts, List.mem_append]
          exact .inl (List.mem_map.mpr ⟨_, hp, rfl⟩)
        have h2 : p.2 ∈ (Obj.map kt' vt' new).parts := by
          simp only [Obj.parts, List.mem_append]
          exact .inr (List.mem_map.mpr ⟨_, hp, rfl⟩)
        rcases h with h | ⟨y, h⟩
        · exact .of_part h1 (fromReflectPanics_only _ _ (hv.parts h1) h).1
        · exact part h2 h
    · simp at h

/-! ## `reflect_eq` -/

theorem reflectEqPanics_only {E' : Env} (a b : Obj) (ha : a.OKV E') (h : reflectEqPanics E a b = true) :
    a.HoldsSkipped E := by
  induction a using Obj.ind generalizing b with
  | h a ih =>
  have hdv : a.DynVis := ha.dynVis
  have part : ∀ {y w : Obj}, y ∈ a.parts → reflectEqPanics E y w = true → a.HoldsSkipped E :=
    fun hw hp => .of_part hw (ih _ (Obj.parts_size hw) _ (ha.parts hw) hp)
  have named : loopPanics (a.namedIter.attach.map fun p =>
        match b.field p.1.1 with
        | none => (false, false)
        | some y => (reflectEqPanics E p.1.2 y, decide (reflectEq E p.1.2 y = some true))) = true →
      a.HoldsSkipped E := by
    intro h
    obtain ⟨q, hq, e⟩ := loopPanics_true h
    obtain ⟨p, _, rfl⟩ := List.mem_map.mp hq
    split at e
    · simp at e
    · exact part (Obj.namedIter_parts hdv p.2) e
  have posn : ∀ {l l' : List Obj}, (∀ x ∈ l, x ∈ a.parts) →
      loopPanics ((l.zip l').attach.map fun p =>
        (reflectEqPanics E p.1.1 p.1.2, decide (reflectEq E p.1.1 p.1.2 = some true))) = true →
      a.HoldsSkipped E := by
    intro l l' hl h
    obtain ⟨q, hq, e⟩ := loopPanics_true h
    obtain ⟨p, _, rfl⟩ := List.mem_map.mp hq
    exact part (hl _ (List.of_mem_zip (a := p.1.1) (b := p.1.2) p.2).1) e
  have vis : ∀ fs : List Obj, ∀ x ∈ fs.takeWhile fun x => !x.isHidden, x ∈ visPos fs := by
    intro fs x hx
    exact Obj.posIter_parts (o := .tuple .dyn fs) hx
  rw [reflectEqPanics.eq_def] at h
  split at h
  · simp at h
  · simp at h
  · simp at h
  · simp at h
  · split at h
    · exact named h
    · simp at h
  · split at h
    · exact named h
    · simp at h
  · split at h
    · exact posn (vis _) h
    · simp at h
  · split at h
    · exact posn (vis _) h
    · simp at h
  · split at h
    · exact posn (vis _) h
    · simp at h
  · split at h
    · exact posn (fun x hx => hx) h
    · simp at h
  · split at h
    · exact posn (fun x hx => hx) h
    · simp at h
  · next kt vt kvs =>
    split at h
    · obtain ⟨q, hq, e⟩ := loopPanics_true h
      obtain ⟨p, hp, rfl⟩ := List.mem_map.mp hq
      have h1 : p.1 ∈ (Obj.map kt vt kvs).parts := by
        simp only [Obj.parts, List.mem_append]
        exact .inl (List.mem_map.mpr ⟨_, hp, rfl⟩)
      have h2 : p.2 ∈ (Obj.map kt vt kvs).parts := by
        simp only [Obj.parts, List.mem_append]
        exact .inr (List.mem_map.mpr ⟨_, hp, rfl⟩)
      split at e
      · next hg =>
        cases b <;> simp only [Obj.mapGetPanics, Bool.false_eq_true] at hg
        exact .of_part h1 (fromReflectPanics_only _ _ (ha.parts h1) hg).1
      · split at e
        · simp at e
        · exact part h2 e
    · simp at h

/-! ## Values with and without skipped variants -/

theorem full_struct {n : String} {fds : List FieldDef} {c : Bool} :
    (E.full S).decl n = some ⟨.struct fds, c⟩ ↔ E.decl n = some ⟨.struct fds, c⟩ := by
  simp only [Env.full]
  split
  · next h => simp [h]
  · rfl

theorem full_tupleStruct {n : String} {fds : List FieldDef} {c : Bool} :
    (E.full S).decl n = some ⟨.tupleStruct fds, c⟩ ↔ E.decl n = some ⟨.tupleStruct fds, c⟩ := by
  simp only [Env.full]
  split
  · next h => simp [h]
  · rfl

theorem full_enum {n : String} {vds : List VariantDef} {c : Bool} :
    (E.full S).decl n = some ⟨.enum vds, c⟩ ↔
      ∃ vds', E.decl n = some ⟨.enum vds', c⟩ ∧ vds = vds' ++ (S n).map VariantDef.hide := by
  simp only [Env.full]
  split
  · next vds' c' h =>
    simp only [h, Option.some.injEq, TyDef.mk.injEq, Shape.enum.injEq]
    constructor
    · rintro ⟨rfl, rfl⟩; exact ⟨_, ⟨rfl, rfl⟩, rfl⟩
    · rintro ⟨_, ⟨rfl, rfl⟩, rfl⟩; exact ⟨rfl, rfl⟩
  · next h =>
    constructor
    · intro h'; exact absurd h' (h _ _)
    · rintro ⟨vds', h', _⟩; exact absurd h' (h _ _)

theorem HasTy.to_full {t : Ty} {o : Obj} (h : HasTy E t o) : HasTy (E.full S) t o := by
  induction h with
  | scalar s => exact .scalar s
  | nonzero k n h => exact .nonzero k n h
  | struct n fds c fs hd hn hs ht ih => exact .struct n fds c fs (full_struct.mpr hd) hn hs ih
  | tupleStruct n fds c fs hd hn hs ht ih =>
    exact .tupleStruct n fds c fs (full_tupleStruct.mpr hd) hn hs ih
  | enumS n vds c vn fds fs hd hv hn hs ht ih =>
    exact .enumS n _ c vn fds fs (full_enum.mpr ⟨vds, hd, rfl⟩) (List.mem_append_left _ hv) hn hs ih
  | enumT n vds c vn fds fs hd hv hn hs ht ih =>
    exact .enumT n _ c vn fds fs (full_enum.mpr ⟨vds, hd, rfl⟩) (List.mem_append_left _ hv) hn hs ih
  | enumU n vds c vn hd hv =>
    exact .enumU n _ c vn (full_enum.mpr ⟨vds, hd, rfl⟩) (List.mem_append_left _ hv)
  | tuple ts fs hl ht ih => exact .tuple ts fs hl ih
  | vec t xs h ih => exact .vec t xs ih
  | array t xs h ih => exact .array t xs ih
  | map kt vt kvs hs hk hv ihk ihv => exact .map kt vt kvs hs ihk ihv
  | box t o h ih => exact .box t o ih
  | value v o h e => exact .value v o h e
  | structValue ns fs o h e => exact .structValue ns fs o h e
  | tupleStructValue fs o h e => exact .tupleStructValue fs o h e
  | tupleValue fs o h e => exact .tupleValue fs o h e
  | enumValueS v ns fs o h e => exact .enumValueS v ns fs o h e
  | enumValueT v fs o h e => exact .enumValueT v fs o h e
  | enumValueU v o e => exact .enumValueU v o e

theorem HasTy.not_skipped {t : Ty} {o : Obj} (h : HasTy E t o) : o.skippedVariant E = false := by
  induction h with
  | enumS n vds c vn fds fs hd hv hn hs ht ih =>
    simp only [Obj.skippedVariant, Obj.typeOf, Obj.variantName, hd, Bool.not_eq_false', List.any_eq_true]
    exact ⟨_, hv, by simp [VariantDef.name]⟩
  | enumT n vds c vn fds fs hd hv hn hs ht ih =>
    simp only [Obj.skippedVariant, Obj.typeOf, Obj.variantName, hd, Bool.not_eq_false', List.any_eq_true]
    exact ⟨_, hv, by simp [VariantDef.name]⟩
  | enumU n vds c vn hd hv =>
    simp only [Obj.skippedVariant, Obj.typeOf, Obj.variantName, hd, Bool.not_eq_false', List.any_eq_true]
    exact ⟨_, hv, by simp [VariantDef.name]⟩
  | box t o h ih => exact ih
  | value v o h e => subst e; exact Value.toObj_skipped _
  | structValue ns fs o h e => subst e; exact Value.toObj_skipped _
  | tupleStructValue fs o h e => subst e; exact Value.toObj_skipped _
  | tupleValue fs o h e => subst e; exact Value.toObj_skipped _
  | enumValueS v ns fs o h e => subst e; exact Value.toObj_skipped _
  | enumValueT v fs o h e => subst e; exact Value.toObj_skipped _
  | enumValueU v o e => subst e; exact Value.toObj_skipped _
  | _ => simp [Obj.skippedVariant, Obj.typeOf, Obj.variantName]

theorem Obj.OK.not_holds {o : Obj} (h : o.OK E) : ¬ o.HoldsSkipped E := by
  rintro ⟨x, hx, hs⟩
  induction hx with
  | self =>
    obtain ⟨t, h⟩ := h
    simp [h.not_skipped] at hs
  | part y o hy _ ih => exact ih (h.parts hy)

/-- No variant name is used twice, also counting the skipped ones. -/
theorem full_disjoint (hD : DeclsOK (E.full S)) {n : String} {vds : List VariantDef} {c : Bool}
    (hd : E.decl n = some ⟨.enum vds, c⟩) {a b : VariantDef} (ha : a ∈ vds)
    (hb : b ∈ (S n).map VariantDef.hide) : a.name ≠ b.name := by
  have := hD.variant_names n _ c (full_enum.mpr ⟨vds, hd, rfl⟩)
  rw [List.map_append, List.nodup_append] at this
  exact this.2.2 _ (List.mem_map.mpr ⟨a, ha, rfl⟩) _ (List.mem_map.mpr ⟨b, hb, rfl⟩)

theorem not_skipped_variant (hD : DeclsOK (E.full S)) {n : String} {vds : List VariantDef} {c : Bool}
    (hd : E.decl n = some ⟨.enum vds, c⟩) {o : Obj} {b : VariantDef} (ht : o.typeOf = some (.named n))
    (hn : o.variantName = some b.name) (hb : b ∈ vds ++ (S n).map VariantDef.hide)
    (hs : o.skippedVariant E = false) : b ∈ vds := by
  rcases List.mem_append.mp hb with h | h
  · exact h
  · simp only [Obj.skippedVariant, ht, hn, hd, Bool.not_eq_false', List.any_eq_true,
      decide_eq_true_eq] at hs
    obtain ⟨a, ha, e⟩ := hs
    exact absurd e (full_disjoint hD hd ha h)

theorem skipped_variant (hD : DeclsOK (E.full S)) {n : String} {vds : List VariantDef} {c : Bool}
    (hd : E.decl n = some ⟨.enum vds, c⟩) {o : Obj} {b : VariantDef} (ht : o.typeOf = some (.named n))
    (hn : o.variantName = some b.name) (hb : b ∈ vds ++ (S n).map VariantDef.hide)
    (hs : o.skippedVariant E = true) : b ∈ (S n).map VariantDef.hide := by
  rcases List.mem_append.mp hb with h | h
  · simp only [Obj.skippedVariant, ht, hn, hd, Bool.not_eq_true', List.any_eq_false,
      decide_eq_true_eq] at hs
    exact absurd rfl (hs _ h)
  · exact h

theorem HasTy.of_full (hD : DeclsOK (E.full S)) {t : Ty} {o : Obj} (h : HasTy (E.full S) t o)
    (hs : ¬ o.HoldsSkipped E) : HasTy E t o := by
  have part : ∀ {o x : Obj}, ¬ o.HoldsSkipped E → x ∈ o.parts → ¬ x.HoldsSkipped E :=
    fun h hx h' => h (.of_part hx h')
  have here : ∀ {o : Obj}, ¬ o.HoldsSkipped E → o.skippedVariant E = false := fun h => by
    by_contra h'
    exact h (holdsSkipped_iff.mpr (.inl (by simpa using h')))
  have nm : ∀ {fs : List (String × Obj)} {i : Nat} {p}, fs[i]? = some p → p.2.isHidden = false →
      p.2 ∈ (visFields fs).map (·.2) := fun h e =>
    List.mem_map.mpr ⟨_, List.mem_filter.mpr ⟨List.mem_of_getElem? h, by simp [e]⟩, rfl⟩
  have ps : ∀ {fs : List Obj} {i : Nat} {p}, fs[i]? = some p → p.isHidden = false →
      p ∈ visPos fs := fun h e =>
    List.mem_filter.mpr ⟨List.mem_of_getElem? h, by simp [e]⟩
  induction h with
  | scalar s => exact .scalar s
  | nonzero k n h => exact .nonzero k n h
  | struct n fds c fs hd hn hsk ht ih =>
    exact .struct n fds c fs (full_struct.mp hd) hn hsk fun i fd p h1 h2 h3 =>
      ih i fd p h1 h2 h3 (part hs (nm h2 (ht i fd p h1 h2 h3).not_hidden))
  | tupleStruct n fds c fs hd hn hsk ht ih =>
    exact .tupleStruct n fds c fs (full_tupleStruct.mp hd) hn hsk fun i fd p h1 h2 h3 =>
      ih i fd p h1 h2 h3 (part hs (ps h2 (ht i fd p h1 h2 h3).not_hidden))
  | enumS n vds c vn fds fs hd hv hn hsk ht ih =>
    obtain ⟨vds', hd', rfl⟩ := full_enum.mp hd
    exact .enumS n vds' c vn fds fs hd'
      (not_skipped_variant hD hd' (by simp [Obj.typeOf]) (by simp [Obj.variantName, VariantDef.name]) hv
        (here hs)) hn hsk fun i fd p h1 h2 h3 =>
      ih i fd p h1 h2 h3 (part hs (nm h2 (ht i fd p h1 h2 h3).not_hidden))
  | enumT n vds c vn fds fs hd hv hn hsk ht ih =>
    obtain ⟨vds', hd', rfl⟩ := full_enum.mp hd
    exact .enumT n vds' c vn fds fs hd'
      (not_skipped_variant hD hd' (by simp [Obj.typeOf]) (by simp [Obj.variantName, VariantDef.name]) hv
        (here hs)) hn hsk fun i fd p h1 h2 h3 =>
      ih i fd p h1 h2 h3 (part hs (ps h2 (ht i fd p h1 h2 h3).not_hidden))
  | enumU n vds c vn hd hv =>
    obtain ⟨vds', hd', rfl⟩ := full_enum.mp hd
    exact .enumU n vds' c vn hd'
      (not_skipped_variant hD hd' (by simp [Obj.typeOf]) (by simp [Obj.variantName, VariantDef.name]) hv
        (here hs))
  | tuple ts fs hl ht ih =>
    exact .tuple ts fs hl fun i t x h1 h2 =>
      ih i t x h1 h2 (part hs (ps h2 (ht i t x h1 h2).not_hidden))
  | vec t xs h ih => exact .vec t xs fun x hx => ih x hx (part hs hx)
  | array t xs h ih => exact .array t xs fun x hx => ih x hx (part hs hx)
  | map kt vt kvs hb hk hv ihk ihv =>
    refine .map kt vt kvs hb (fun p hp => ihk p hp (part hs ?_)) (fun p hp => ihv p hp (part hs ?_))
    · simp only [Obj.parts, List.mem_append]
      exact .inl (List.mem_map.mpr ⟨_, hp, rfl⟩)
    · simp only [Obj.parts, List.mem_append]
      exact .inr (List.mem_map.mpr ⟨_, hp, rfl⟩)
  | box t o h ih => exact .box t o (ih hs)
  | value v o h e => exact .value v o h e
  | structValue ns fs o h e => exact .structValue ns fs o h e
  | tupleStructValue fs o h e => exact .tupleStructValue fs o h e
  | tupleValue fs o h e => exact .tupleValue fs o h e
  | enumValueS v ns fs o h e => exact .enumValueS v ns fs o h e
  | enumValueT v fs o h e => exact .enumValueT v fs o h e
  | enumValueU v o e => exact .enumValueU v o e

/-- The shape of an object that holds a skipped variant. -/
theorem skipped_form (hD : DeclsOK (E.full S)) {t : Ty} {o : Obj} (h : HasTy (E.full S) t o)
    (hs : o.skippedVariant E = true) :
    ∃ n vds c vd, t.unbox = .named n ∧ E.decl n = some ⟨.enum vds, c⟩ ∧ vd ∈ S n ∧
      o.typeOf = some (.named n) ∧ o.variantName = some vd.name ∧ (∀ a ∈ vds, a.name ≠ vd.name) ∧
      ((∃ vn fds fs, vd = .struct vn fds ∧ o = .enumS (.derived n) vn fs ∧ ∀ p ∈ fs, p.2.isHidden = true) ∨
       (∃ vn fds fs, vd = .tuple vn fds ∧ o = .enumT (.derived n) vn fs ∧ ∀ x ∈ fs, x.isHidden = true) ∨
       (∃ vn, vd = .unit vn ∧ o = .enumU (.derived n) vn)) := by
  induction h with
  | box t o h ih =>
    obtain ⟨n, vds, c, vd, h1, h2⟩ := ih hs
    exact ⟨n, vds, c, vd, by simpa [Ty.unbox] using h1, h2⟩
  | enumS n vds c vn fds fs hd hv hn hsk ht ih =>
    obtain ⟨vds', hd', rfl⟩ := full_enum.mp hd
    have hm := skipped_variant hD hd' (o := .enumS (.derived n) vn fs) (b := .struct vn fds)
      (by simp [Obj.typeOf]) (by simp [Obj.variantName, VariantDef.name]) hv hs
    obtain ⟨vd, hvd, e⟩ := List.mem_map.mp hm
    cases vd <;> simp only [VariantDef.hide, VariantDef.struct.injEq, reduceCtorEq] at e
    next vn' fds' =>
    obtain ⟨rfl, rfl⟩ := e
    refine ⟨n, vds', c, _, rfl, hd', hvd, rfl, rfl,
      fun a ha => by simpa [VariantDef.name] using full_disjoint hD hd' ha hm, .inl ⟨_, _, fs, rfl, rfl, fun p hp => ?_⟩⟩
    obtain ⟨i, hi⟩ := List.getElem?_of_mem hp
    have hl := congrArg List.length hn
    simp only [List.length_map] at hl
    have hi' : i < fds'.length := by
      have := (List.getElem?_eq_some_iff.mp hi).1
      omega
    exact hsk i { fds'[i] with skip := true } p (by simp [List.getElem?_eq_getElem hi']) hi rfl
  | enumT n vds c vn fds fs hd hv hn hsk ht ih =>
    obtain ⟨vds', hd', rfl⟩ := full_enum.mp hd
    have hm := skipped_variant hD hd' (o := .enumT (.derived n) vn fs) (b := .tuple vn fds)
      (by simp [Obj.typeOf]) (by simp [Obj.variantName, VariantDef.name]) hv hs
    obtain ⟨vd, hvd, e⟩ := List.mem_map.mp hm
    cases vd <;> simp only [VariantDef.hide, VariantDef.tuple.injEq, reduceCtorEq] at e
    next vn' fds' =>
    obtain ⟨rfl, rfl⟩ := e
    refine ⟨n, vds', c, _, rfl, hd', hvd, rfl, rfl,
      fun a ha => by simpa [VariantDef.name] using full_disjoint hD hd' ha hm, .inr (.inl ⟨_, _, fs, rfl, rfl, fun p hp => ?_⟩)⟩
    obtain ⟨i, hi⟩ := List.getElem?_of_mem hp
    simp only [List.length_map] at hn
    have hi' : i < fds'.length := by
      have := (List.getElem?_eq_some_iff.mp hi).1
      omega
    exact hsk i { fds'[i] with skip := true } p (by simp [List.getElem?_eq_getElem hi']) hi rfl
  | enumU n vds c vn hd hv =>
    obtain ⟨vds', hd', rfl⟩ := full_enum.mp hd
    have hm := skipped_variant hD hd' (o := .enumU (.derived n) vn) (b := .unit vn)
      (by simp [Obj.typeOf]) (by simp [Obj.variantName, VariantDef.name]) hv hs
    obtain ⟨vd, hvd, e⟩ := List.mem_map.mp hm
    cases vd <;> simp only [VariantDef.hide, VariantDef.unit.injEq, reduceCtorEq] at e
    subst e
    exact ⟨n, vds', c, _, rfl, hd', hvd, rfl, rfl, fun a ha => full_disjoint hD hd' ha hm,
      .inr (.inr ⟨_, rfl, rfl⟩)⟩
  | value v o h e => subst e; simp [Value.toObj_skipped] at hs
  | structValue ns fs o h e => subst e; simp [Value.toObj_skipped] at hs
  | tupleStructValue fs o h e => subst e; simp [Value.toObj_skipped] at hs
  | tupleValue fs o h e => subst e; simp [Value.toObj_skipped] at hs
  | enumValueS v ns fs o h e => subst e; simp [Value.toObj_skipped] at hs
  | enumValueT v fs o h e => subst e; simp [Value.toObj_skipped] at hs
  | enumValueU v o e => subst e; simp [Value.toObj_skipped] at hs
  | _ => simp [Obj.skippedVariant, Obj.typeOf, Obj.variantName] at hs

end Mirror
