import Verif.Lemmas.SelfConv

set_option linter.unusedSimpArgs false

/-!
# Unfolding equations for `patch`, and preservation of types
-/

namespace Mirror

/-- Patch with an optional value. -/
def patchO (E : Env) (x : Obj) : Option Obj → Obj
  | none => x
  | some w => patch E x w

theorem patch_hidden (E : Env) (d : Nat) (v : Obj) : patch E (.hidden d) v = .hidden d := by
  rw [patch]

theorem patchO_hidden (E : Env) (d : Nat) (v : Option Obj) : patchO E (.hidden d) v = .hidden d := by
  cases v <;> simp [patchO, patch_hidden]

theorem patchO_of_hidden (E : Env) {x : Obj} (h : x.isHidden = true) (v : Option Obj) :
    patchO E x v = x := by
  cases x <;> simp [Obj.isHidden] at h
  exact patchO_hidden ..

theorem patch_scalar (E : Env) (s : Scalar) (v : Obj) :
    patch E (.scalar s) v = if v.isTy (.scalar s.kind) then v else .scalar s := by
  rw [patch]

theorem patch_nonzero (E : Env) (k : IntKind) (n : Int) (v : Obj) :
    patch E (.nonzero k n) v = (fromReflect E (.nonzero k) v).getD (.nonzero k n) := by
  rw [patch]

theorem patchNamed_eq (E : Env) (v : Obj) (p : String × Obj) :
    (if p.2.isHidden then p
      else
        match _h : v.field p.1 with
        | none => p
        | some w => (p.1, patch E p.2 w)) = (p.1, patchO E p.2 (v.field p.1)) := by
  split
  · next h => rw [patchO_of_hidden E h]
  · split <;> (rename_i h; rw [h]; rfl)

theorem patchNamed_eq' (E : Env) (v : Obj) (p : String × Obj) :
    (match _h : v.field p.1 with
        | none => p
        | some w => (p.1, patch E p.2 w)) = (p.1, patchO E p.2 (v.field p.1)) := by
  split <;> (rename_i h; rw [h]; rfl)

theorem patchPos_eq (E : Env) (v : Obj) (i : Nat) (y : Obj) :
    (if y.isHidden then y
      else
        match _h : v.fieldAt i with
        | none => y
        | some w => patch E y w) = patchO E y (v.fieldAt i) := by
  split
  · next h => rw [patchO_of_hidden E h]
  · split <;> (rename_i h; rw [h]; rfl)

theorem patchPos_eq' (E : Env) (v : Obj) (i : Nat) (y : Obj) :
    (match _h : v.fieldAt i with
        | none => y
        | some w => patch E y w) = patchO E y (v.fieldAt i) := by
  split <;> (rename_i h; rw [h]; rfl)

/-- Patch every named field with the same-named field of `v`. -/
def patchNamed (E : Env) (v : Obj) (fs : List (String × Obj)) : List (String × Obj) :=
  fs.map fun p => (p.1, patchO E p.2 (v.field p.1))

/-- Patch every positional field with the field of `v` at the same position. -/
def patchPos (E : Env) (v : Obj) (fs : List Obj) : List Obj :=
  fs.mapIdx fun i y => patchO E y (v.fieldAt i)

theorem patch_struct (E : Env) (tag : STag) (fs : List (String × Obj)) (v : Obj) :
    patch E (.struct tag fs) v =
      if v.kind = .struct then .struct tag (patchNamed E v fs) else .struct tag fs := by
  rw [patch]
  split
  · congr 1; exact List.map_congr_left fun p _ => patchNamed_eq E v p
  · rfl

theorem patch_tupleStruct (E : Env) (tag : TSTag) (fs : List Obj) (v : Obj) :
    patch E (.tupleStruct tag fs) v =
      if v.kind = .tupleStruct then .tupleStruct tag (patchPos E v fs) else .tupleStruct tag fs := by
  rw [patch]
  split
  · congr 1; exact congrArg (List.mapIdx · fs) (funext fun i => funext fun y => patchPos_eq E v i y)
  · rfl

theorem patch_tuple (E : Env) (tag : TTag) (fs : List Obj) (v : Obj) :
    patch E (.tuple tag fs) v =
      if v.kind = .tuple then .tuple tag (patchPos E v fs) else .tuple tag fs := by
  rw [patch]
  split
  · congr 1; exact congrArg (List.mapIdx · fs) (funext fun i => funext fun y => patchPos_eq' E v i y)
  · rfl

theorem patch_vec (E : Env) (t : Ty) (fs : List Obj) (v : Obj) :
    patch E (.vec t fs) v =
      if v.kind = .list then .vec t (patchPos E v fs) else .vec t fs := by
  rw [patch]
  split
  · congr 1; exact congrArg (List.mapIdx · fs) (funext fun i => funext fun y => patchPos_eq' E v i y)
  · rfl

theorem patch_array (E : Env) (t : Ty) (fs : List Obj) (v : Obj) :
    patch E (.array t fs) v =
      if v.kind = .array then .array t (patchPos E v fs) else .array t fs := by
  rw [patch]
  split
  · congr 1; exact congrArg (List.mapIdx · fs) (funext fun i => funext fun y => patchPos_eq' E v i y)
  · rfl

/-- Patch the fields of an enum without changing its variant. -/
def patchFields (E : Env) (v : Obj) : Obj → Obj
  | .enumS tag vn fs => .enumS tag vn (patchNamed E v fs)
  | .enumT tag vn fs => .enumT tag vn (patchPos E v fs)
  | o => o

theorem patch_enum_derived (E : Env) {n : String} {x : Obj} (hk : x.kind = .enum)
    (ht : x.typeOf = some (.named n)) (v : Obj) :
    patch E x v =
      if v.isTy (.named n) && !((E.decl n).any (·.cloneOptOut)) then v
      else if v.kind = .enum then
        match fromReflect E (.named n) v with
        | some y => y
        | none => if v.variantName = x.variantName then patchFields E v x else x
      else x := by
  cases x <;> simp only [Obj.kind, reduceCtorEq] at hk
  case enumS tag vn fs =>
    cases tag <;> simp only [Obj.typeOf, Option.some.injEq, Ty.named.injEq, reduceCtorEq] at ht
    subst ht
    rw [patch]
    have he : patchNamed E v fs = _ := (List.map_congr_left fun p _ => patchNamed_eq E v p).symm
    simp only [patchFields, Obj.variantName, he]
    rfl
  case enumT tag vn fs =>
    cases tag <;> simp only [Obj.typeOf, Option.some.injEq, Ty.named.injEq, reduceCtorEq] at ht
    subst ht
    rw [patch]
    have he : patchPos E v fs = _ :=
      (congrArg (List.mapIdx · fs) (funext fun i => funext fun y => patchPos_eq E v i y)).symm
    simp only [patchFields, Obj.variantName, he]
    rfl
  case enumU tag vn =>
    cases tag <;> simp only [Obj.typeOf, Option.some.injEq, Ty.named.injEq, reduceCtorEq] at ht
    subst ht
    rw [patch]
    cases fromReflect E (.named _) v <;> simp [patchFields]

theorem patch_enum_dyn (E : Env) {x : Obj} (hk : x.kind = .enum)
    (ht : x.typeOf = some .enumValue) (v : Obj) :
    patch E x v =
      if v.kind = .enum then
        if v.variantName = x.variantName then patchFields E v x
        else (fromReflect E .enumValue v).getD x
      else x := by
  cases x <;> simp only [Obj.kind, reduceCtorEq] at hk
  case enumS tag vn fs =>
    cases tag <;> simp only [Obj.typeOf, Option.some.injEq, reduceCtorEq] at ht
    rw [patch]
    have he : patchNamed E v fs = _ := (List.map_congr_left fun p _ => patchNamed_eq' E v p).symm
    simp only [patchFields, Obj.variantName, he]
    rfl
  case enumT tag vn fs =>
    cases tag <;> simp only [Obj.typeOf, Option.some.injEq, reduceCtorEq] at ht
    rw [patch]
    have he : patchPos E v fs = _ :=
      (congrArg (List.mapIdx · fs) (funext fun i => funext fun y => patchPos_eq' E v i y)).symm
    simp only [patchFields, Obj.variantName, he]
    rfl
  case enumU tag vn =>
    cases tag <;> simp only [Obj.typeOf, Option.some.injEq, reduceCtorEq] at ht
    rw [patch]
    rfl

/-- The effect of one entry of a map patch. -/
def patchEntry (E : Env) (kt : Ty) (m : List (Obj × Obj)) (p : Obj × Obj) : List (Obj × Obj) :=
  match fromReflect E kt p.1 with
  | none => m
  | some k => bmModify (E.kcmp kt) k (fun y => patch E y p.2) m

theorem patch_map (E : Env) (kt vt u w : Ty) (kvs new : List (Obj × Obj)) :
    patch E (.map kt vt kvs) (.map u w new) =
      .map kt vt (new.foldl (patchEntry E kt) kvs) := by
  rw [patch]
  simp only [List.foldl_map]
  rfl

theorem patch_map_other (E : Env) (kt vt : Ty) (kvs : List (Obj × Obj)) {v : Obj}
    (h : v.kind ≠ .map) : patch E (.map kt vt kvs) v = .map kt vt kvs := by
  cases v <;> first | (rw [patch]; intros; simp_all; done) | (simp [Obj.kind] at h)

/-! ## Maps -/

section
variable {κ α : Type} {cmp : κ → κ → Ordering}

theorem bmModify_keys (k : κ) (f : α → α) (l : List (κ × α)) :
    (bmModify cmp k f l).map (·.1) = l.map (·.1) := by
  induction l with
  | nil => rfl
  | cons p r ih =>
    simp only [bmModify]
    split <;> simp [ih]

theorem sorted_of_keys_eq {β} {l : List (κ × α)} {m : List (κ × β)} (h : m.map (·.1) = l.map (·.1))
    (hs : BMSorted cmp l) : BMSorted cmp m := by
  have : (l.map (·.1)).Pairwise fun a b => cmp a b = .lt := by
    simpa [BMSorted, List.pairwise_map] using hs
  rw [← h] at this
  simpa [BMSorted, List.pairwise_map] using this

theorem bmModify_mem {k : κ} {f : α → α} {l : List (κ × α)} {p : κ × α} (h : p ∈ bmModify cmp k f l) :
    p ∈ l ∨ ∃ v, (p.1, v) ∈ l ∧ p.2 = f v ∧ cmp k p.1 = .eq := by
  induction l with
  | nil => simp [bmModify] at h
  | cons q r ih =>
    simp only [bmModify] at h
    split at h
    · next he =>
      rcases List.mem_cons.mp h with rfl | h
      · exact .inr ⟨q.2, by simp, rfl, he⟩
      · exact .inl (by simp [h])
    · rcases List.mem_cons.mp h with rfl | h
      · exact .inl (by simp)
      · rcases ih h with h | ⟨v, hv, h⟩
        · exact .inl (by simp [h])
        · exact .inr ⟨v, by simp [hv], h⟩
end

theorem patchEntry_keys (E : Env) (kt : Ty) (m : List (Obj × Obj)) (p : Obj × Obj) :
    (patchEntry E kt m p).map (·.1) = m.map (·.1) := by
  unfold patchEntry
  split
  · rfl
  · exact bmModify_keys ..

theorem patchEntries_keys (E : Env) (kt : Ty) (new : List (Obj × Obj)) : ∀ m : List (Obj × Obj),
    (new.foldl (patchEntry E kt) m).map (·.1) = m.map (·.1) := by
  induction new with
  | nil => intro m; rfl
  | cons p new ih => intro m; rw [List.foldl_cons, ih, patchEntry_keys]

/-! ## Types are preserved -/

theorem vals_of_patchEntries {E : Env} {Q : Obj → Prop} {kt : Ty} (new : List (Obj × Obj))
    (hq : ∀ p ∈ new, ∀ y, Q y → Q (patch E y p.2)) : ∀ m : List (Obj × Obj), (∀ p ∈ m, Q p.2) →
    ∀ p ∈ new.foldl (patchEntry E kt) m, Q p.2 := by
  induction new with
  | nil => intro m h; exact h
  | cons a new ih =>
    intro m h
    rw [List.foldl_cons]
    apply ih (fun p hp => hq p (by simp [hp]))
    intro p hp
    unfold patchEntry at hp
    split at hp
    · exact h p hp
    · rcases bmModify_mem hp with hp | ⟨v, hv, he, _⟩
      · exact h p hp
      · rw [he]; exact hq a (by simp) _ (h _ hv)

theorem fields_of_values {xs : List (String × Obj)}
    (h : ∀ p ∈ xs, ∃ v : Value, v.WF ∧ p.2 = v.toObj) :
    ∃ vs : List (String × Value), (∀ p ∈ vs, p.2.WF) ∧
      xs = vs.map fun p => (p.1, p.2.toObj) := by
  induction xs with
  | nil => exact ⟨[], by simp, rfl⟩
  | cons p xs ih =>
    obtain ⟨v, hv, he⟩ := h p (by simp)
    obtain ⟨vs, hvs, rfl⟩ := ih fun q hq => h q (by simp [hq])
    refine ⟨(p.1, v) :: vs, ?_, by simp [← he]⟩
    intro q hq
    rcases List.mem_cons.mp hq with rfl | hq
    · exact hv
    · exact hvs q hq

theorem HasTy.of_enumValue {E : Env} {o : Obj} (h : HasTy E .enumValue o) : HasTy E .value o := by
  cases h with
  | enumValueS v ns fs _ h ho => exact .value _ _ h ho
  | enumValueT v fs _ h ho => exact .value _ _ h ho
  | enumValueU v _ ho => exact .value _ _ (.enumU v) ho

/-- `patchO` preserves a type if `patch` with smaller objects does. -/
theorem patchO_pres {E : Env} {Q : Obj → Prop} {v : Obj} {a : Option Obj} {x : Obj}
    (ih : ∀ w, sizeOf w < sizeOf v → w.OK E → ∀ y, Q y → Q (patch E y w))
    (ha : ∀ w, a = some w → sizeOf w < sizeOf v ∧ w.OK E) (hx : Q x) : Q (patchO E x a) := by
  cases a with
  | none => exact hx
  | some w => obtain ⟨h1, h2⟩ := ha w rfl; exact ih w h1 h2 x hx

theorem field_small {E : Env} {v : Obj} (hv : v.OK E) (n : String) :
    ∀ w, v.field n = some w → sizeOf w < sizeOf v ∧ w.OK E :=
  fun _ h => ⟨Obj.field_size h, OK_field hv h⟩

theorem fieldAt_small {E : Env} {v : Obj} (hv : v.OK E) (i : Nat) :
    ∀ w, v.fieldAt i = some w → sizeOf w < sizeOf v ∧ w.OK E :=
  fun _ h => ⟨Obj.fieldAt_size h, OK_fieldAt hv h⟩

/-- Patching preserves the type of the patched value, whatever the patch. -/
theorem patch_hasTy {E : Env} (hO : OrdLaws E) (v : Obj) (hv : v.OK E) : ∀ {t : Ty} {x : Obj},
    HasTy E t x → HasTy E t (patch E x v) := by
  induction v using Obj.ind with
  | h v ihv =>
    have ih : ∀ t w, sizeOf w < sizeOf v → w.OK E → ∀ y, HasTy E t y → HasTy E t (patch E y w) :=
      fun t w h hw y hy => ihv w h hw hy
    -- lists of fields
    have named : ∀ {fds : List FieldDef} {fs : List (String × Obj)},
        fs.map (·.1) = fds.map (·.name) →
        (∀ (i : Nat) fd p, fds[i]? = some fd → fs[i]? = some p → fd.skip = true →
          p.2.isHidden = true) →
        (∀ (i : Nat) fd p, fds[i]? = some fd → fs[i]? = some p → fd.skip = false →
          HasTy E fd.ty p.2) →
        (patchNamed E v fs).map (·.1) = fds.map (·.name) ∧
        (∀ (i : Nat) fd p, fds[i]? = some fd → (patchNamed E v fs)[i]? = some p → fd.skip = true →
          p.2.isHidden = true) ∧
        (∀ (i : Nat) fd p, fds[i]? = some fd → (patchNamed E v fs)[i]? = some p → fd.skip = false →
          HasTy E fd.ty p.2) := by
      intro fds fs h2 h3 h4
      refine ⟨by simp [patchNamed, Function.comp_def, ← h2], ?_, ?_⟩
      · intro i fd p hfd hp hs
        obtain ⟨q, hq, rfl⟩ := getElem?_map_some hp
        have := h3 i fd q hfd hq hs
        simp only [patchO_of_hidden E this, this]
      · intro i fd p hfd hp hs
        obtain ⟨q, hq, rfl⟩ := getElem?_map_some hp
        exact patchO_pres (ih fd.ty) (field_small hv _) (h4 i fd q hfd hq hs)
    have pos : ∀ {fds : List FieldDef} {fs : List Obj},
        fs.length = fds.length →
        (∀ (i : Nat) fd p, fds[i]? = some fd → fs[i]? = some p → fd.skip = true →
          p.isHidden = true) →
        (∀ (i : Nat) fd p, fds[i]? = some fd → fs[i]? = some p → fd.skip = false →
          HasTy E fd.ty p) →
        (patchPos E v fs).length = fds.length ∧
        (∀ (i : Nat) fd p, fds[i]? = some fd → (patchPos E v fs)[i]? = some p → fd.skip = true →
          p.isHidden = true) ∧
        (∀ (i : Nat) fd p, fds[i]? = some fd → (patchPos E v fs)[i]? = some p → fd.skip = false →
          HasTy E fd.ty p) := by
      intro fds fs h2 h3 h4
      refine ⟨by simp [patchPos, h2], ?_, ?_⟩
      · intro i fd p hfd hp hs
        simp only [patchPos, List.getElem?_mapIdx] at hp
        obtain ⟨q, hq, rfl⟩ := Option.map_eq_some_iff.mp hp
        have := h3 i fd q hfd hq hs
        simp only [patchO_of_hidden E this, this]
      · intro i fd p hfd hp hs
        simp only [patchPos, List.getElem?_mapIdx] at hp
        obtain ⟨q, hq, rfl⟩ := Option.map_eq_some_iff.mp hp
        exact patchO_pres (ih fd.ty) (fieldAt_small hv _) (h4 i fd q hfd hq hs)
    have posAll : ∀ {t : Ty} {xs : List Obj}, (∀ x ∈ xs, HasTy E t x) →
        ∀ x ∈ patchPos E v xs, HasTy E t x := by
      intro t xs h x hx
      obtain ⟨i, hi⟩ := List.getElem?_of_mem hx
      simp only [patchPos, List.getElem?_mapIdx] at hi
      obtain ⟨q, hq, rfl⟩ := Option.map_eq_some_iff.mp hi
      exact patchO_pres (ih t) (fieldAt_small hv _) (h q (List.mem_of_getElem? hq))
    -- dynamic parts
    have dynNamed : ∀ {fs : List (String × Value)}, (∀ p ∈ fs, p.2.WF) → BMSorted strCmp fs →
        ∃ fs' : List (String × Value), patchNamed E v (fs.map fun p => (p.1, p.2.toObj)) =
          fs'.map (fun p => (p.1, p.2.toObj)) ∧ (∀ p ∈ fs', p.2.WF) ∧
          fs'.map (·.1) = fs.map (·.1) ∧ BMSorted strCmp fs' := by
      intro fs hw hs
      obtain ⟨fs', hw', he⟩ := fields_of_values
        (xs := patchNamed E v (fs.map fun p => (p.1, p.2.toObj))) (by
          intro p hp
          simp only [patchNamed, List.map_map] at hp
          obtain ⟨q, hq, rfl⟩ := List.mem_map.mp hp
          have := patchO_pres (x := q.2.toObj) (ih .value) (field_small hv q.1)
            (.value _ _ (hw q hq) rfl)
          exact this.value_inv)
      have hk : fs'.map (·.1) = fs.map (·.1) := by
        have := congrArg (List.map (·.1)) he
        simp [patchNamed, Function.comp_def] at this
        exact this.symm
      exact ⟨fs', he, hw', hk, sorted_of_keys_eq hk hs⟩
    have dynPos : ∀ {fs : List Value}, (∀ x ∈ fs, x.WF) →
        ∃ fs' : List Value, patchPos E v (fs.map fun x => x.toObj) = fs'.map (fun x => x.toObj) ∧
          (∀ x ∈ fs', x.WF) := by
      intro fs hw
      obtain ⟨fs', hw', he⟩ := list_of_values (xs := patchPos E v (fs.map fun x => x.toObj)) (by
        intro x hx
        refine (posAll (t := .value) ?_ x hx).value_inv
        intro y hy
        obtain ⟨z, hz, rfl⟩ := List.mem_map.mp hy
        exact .value _ _ (hw z hz) rfl)
      exact ⟨fs', he, hw'⟩
    have dStruct : ∀ {ns fs}, (Value.struct ns fs).WF →
        HasTy E .structValue (patch E (Value.struct ns fs).toObj v) := by
      intro ns fs h
      rw [Value.toObj, patch_struct]
      split
      · cases h with
        | struct _ _ h1 h2 h3 =>
          obtain ⟨fs', he, hw, hk, hs⟩ := dynNamed h3 h2
          rw [he]
          exact .structValue ns fs' _ (.struct _ _ (by rw [hk]; exact h1) hs hw) (by rw [Value.toObj])
      · exact .structValue ns fs _ h (by rw [Value.toObj])
    have dTS : ∀ {fs}, (Value.tupleStruct fs).WF →
        HasTy E .tupleStructValue (patch E (Value.tupleStruct fs).toObj v) := by
      intro fs h
      rw [Value.toObj, patch_tupleStruct]
      split
      · cases h with
        | tupleStruct _ h =>
          obtain ⟨fs', he, hw⟩ := dynPos h
          rw [he]
          exact .tupleStructValue fs' _ (.tupleStruct _ hw) (by rw [Value.toObj])
      · exact .tupleStructValue fs _ h (by rw [Value.toObj])
    have dT : ∀ {fs}, (Value.tuple fs).WF →
        HasTy E .tupleValue (patch E (Value.tuple fs).toObj v) := by
      intro fs h
      rw [Value.toObj, patch_tuple]
      split
      · cases h with
        | tuple _ h =>
          obtain ⟨fs', he, hw⟩ := dynPos h
          rw [he]
          exact .tupleValue fs' _ (.tuple _ hw) (by rw [Value.toObj])
      · exact .tupleValue fs _ h (by rw [Value.toObj])
    have getD : ∀ {t : Ty} {x : Obj}, HasTy E t x → HasTy E t ((fromReflect E t v).getD x) := by
      intro t x h
      cases hf : fromReflect E t v with
      | none => exact h
      | some y => exact fromReflect_sound hO t v hv hf
    have dE : ∀ {x}, HasTy E .enumValue x → HasTy E .enumValue (patch E x v) := by
      intro x h
      have hx := h
      cases h with
      | enumValueS vn ns fs _ h ho =>
        subst ho
        rw [patch_enum_dyn E (by simp [Value.toObj, Obj.kind]) (by simp [Value.toObj, Obj.typeOf])]
        split
        · split
          · cases h with
            | enumS _ _ _ h1 h2 h3 =>
              obtain ⟨fs', he, hw, hk, hs⟩ := dynNamed h3 h2
              rw [Value.toObj, patchFields, he]
              exact .enumValueS vn ns fs' _ (.enumS _ _ _ (by rw [hk]; exact h1) hs hw)
                (by rw [Value.toObj])
          · exact getD hx
        · exact hx
      | enumValueT vn fs _ h ho =>
        subst ho
        rw [patch_enum_dyn E (by simp [Value.toObj, Obj.kind]) (by simp [Value.toObj, Obj.typeOf])]
        split
        · split
          · cases h with
            | enumT _ _ h =>
              obtain ⟨fs', he, hw⟩ := dynPos h
              rw [Value.toObj, patchFields, he]
              exact .enumValueT vn fs' _ (.enumT _ _ hw) (by rw [Value.toObj])
          · exact getD hx
        · exact hx
      | enumValueU vn _ ho =>
        subst ho
        rw [patch_enum_dyn E (by simp [Value.toObj, Obj.kind]) (by simp [Value.toObj, Obj.typeOf])]
        split
        · split
          · rw [Value.toObj, patchFields]; exact .enumValueU vn _ (by rw [Value.toObj])
            all_goals simp
          · exact getD hx
        · exact hx
    have dMap : ∀ {kt vt kvs}, BMSorted (E.kcmp kt) kvs → (∀ p ∈ kvs, HasTy E kt p.1) →
        (∀ p ∈ kvs, HasTy E vt p.2) → HasTy E (.map kt vt) (patch E (.map kt vt kvs) v) := by
      intro kt vt kvs h1 h2 h3
      by_cases hvk : v.kind = .map
      · cases v <;> simp only [Obj.kind, reduceCtorEq] at hvk
        rename_i u w new
        rw [patch_map]
        have hk := patchEntries_keys E kt new kvs
        refine .map kt vt _ (sorted_of_keys_eq hk h1) ?_ ?_
        · intro p hp
          have : p.1 ∈ (new.foldl (patchEntry E kt) kvs).map (·.1) := List.mem_map_of_mem hp
          rw [hk] at this
          obtain ⟨q, hq, he⟩ := List.mem_map.mp this
          rw [← he]; exact h2 q hq
        · refine vals_of_patchEntries (Q := HasTy E vt) new ?_ kvs h3
          intro p hp y hy
          refine ih vt p.2 ?_ ?_ y hy
          · have := sizeOf_snd_lt_of_mem hp; simp; omega
          · exact hv.parts (by simp only [Obj.parts, List.mem_append]
                               exact .inr (List.mem_map_of_mem hp))
      · rw [patch_map_other E kt vt kvs hvk]
        exact .map kt vt kvs h1 h2 h3
    have enumD : ∀ {n x}, x.kind = .enum → x.typeOf = some (.named n) → HasTy E (.named n) x →
        HasTy E (.named n) (patchFields E v x) → HasTy E (.named n) (patch E x v) := by
      intro n x hk ht hx hp
      rw [patch_enum_derived E hk ht]
      split
      · next h => simp at h; exact hv.isTy hO h.1
      · split
        · split
          · next y hy => exact fromReflect_sound hO _ v hv hy
          · split
            · exact hp
            · exact hx
        · exact hx
    intro t x h
    induction h with
    | scalar s =>
      rw [patch_scalar]
      split
      · next h => exact hv.isTy hO h
      · exact .scalar s
    | nonzero k n h => rw [patch_nonzero]; exact getD (.nonzero k n h)
    | struct n fds c fs hd h2 h3 h4 _ =>
      rw [patch_struct]
      split
      · obtain ⟨a, b, d⟩ := named h2 h3 h4
        exact .struct n fds c _ hd a b d
      · exact .struct n fds c fs hd h2 h3 h4
    | tupleStruct n fds c fs hd h2 h3 h4 _ =>
      rw [patch_tupleStruct]
      split
      · obtain ⟨a, b, d⟩ := pos h2 h3 h4
        exact .tupleStruct n fds c _ hd a b d
      · exact .tupleStruct n fds c fs hd h2 h3 h4
    | enumS n vds c vn fds fs hd hvd h2 h3 h4 _ =>
      apply enumD rfl rfl (.enumS n vds c vn fds fs hd hvd h2 h3 h4)
      obtain ⟨a, b, d⟩ := named h2 h3 h4
      exact .enumS n vds c vn fds _ hd hvd a b d
    | enumT n vds c vn fds fs hd hvd h2 h3 h4 _ =>
      apply enumD rfl rfl (.enumT n vds c vn fds fs hd hvd h2 h3 h4)
      obtain ⟨a, b, d⟩ := pos h2 h3 h4
      exact .enumT n vds c vn fds _ hd hvd a b d
    | enumU n vds c vn hd hvd =>
      apply enumD rfl rfl (.enumU n vds c vn hd hvd)
      exact .enumU n vds c vn hd hvd
    | tuple ts fs hl h _ =>
      rw [patch_tuple]
      split
      · refine .tuple ts _ (by simp [patchPos, hl]) ?_
        intro i t x ht hx
        simp only [patchPos, List.getElem?_mapIdx] at hx
        obtain ⟨q, hq, rfl⟩ := Option.map_eq_some_iff.mp hx
        exact patchO_pres (ih t) (fieldAt_small hv _) (h i t q ht hq)
      · exact .tuple ts fs hl h
    | vec t xs h _ =>
      rw [patch_vec]
      split
      · exact .vec t _ (posAll h)
      · exact .vec t xs h
    | array t xs h _ =>
      rw [patch_array]
      split
      · have : (patchPos E v xs).length = xs.length := by simp [patchPos]
        rw [← this]
        exact .array t _ (posAll h)
      · exact .array t xs h
    | map kt vt kvs h1 h2 h3 _ _ => exact dMap h1 h2 h3
    | box t o _ ih => exact .box t _ ih
    | value a o h ho =>
      subst ho
      cases a with
      | scalar s =>
        rw [Value.toObj, patch_scalar]
        split
        · next hty =>
          have := hv.isTy hO hty
          cases v <;> simp [Obj.isTy, Obj.typeOf] at hty
          case scalar s' => exact .value (.scalar s') _ (.scalar s') (by rw [Value.toObj])
          case struct tag _ => cases tag <;> simp [Obj.isTy, Obj.typeOf] at hty
          case tupleStruct tag _ => cases tag <;> simp [Obj.isTy, Obj.typeOf] at hty
          case tuple tag _ => cases tag <;> simp [Obj.isTy, Obj.typeOf] at hty
          case enumS tag _ _ => cases tag <;> simp [Obj.isTy, Obj.typeOf] at hty
          case enumT tag _ _ => cases tag <;> simp [Obj.isTy, Obj.typeOf] at hty
          case enumU tag _ => cases tag <;> simp [Obj.isTy, Obj.typeOf] at hty
        · exact .value (.scalar s) _ h (by rw [Value.toObj])
      | struct ns fs =>
        cases dStruct h with | structValue ns' fs' _ h' ho' => exact .value _ _ h' ho'
      | tupleStruct fs =>
        cases dTS h with | tupleStructValue fs' _ h' ho' => exact .value _ _ h' ho'
      | tuple fs =>
        cases dT h with | tupleValue fs' _ h' ho' => exact .value _ _ h' ho'
      | enumS vn ns fs => exact (dE (.enumValueS vn ns fs _ h rfl)).of_enumValue
      | enumT vn fs => exact (dE (.enumValueT vn fs _ h rfl)).of_enumValue
      | enumU vn => exact (dE (.enumValueU vn _ rfl)).of_enumValue
      | list xs =>
        rw [Value.toObj, patch_vec]
        split
        · cases h with
          | list _ h =>
            obtain ⟨fs', he, hw⟩ := dynPos h
            rw [he]
            exact .value (.list fs') _ (.list _ hw) (by rw [Value.toObj])
        · exact .value (.list xs) _ h (by rw [Value.toObj])
      | map kvs =>
        cases h with
        | map _ h1 h2 h3 =>
          have hm := valueMap_hasTy hO h1 h2 h3
          rw [Value.toObj] at hm ⊢
          cases hm with
          | map _ _ _ a b c =>
            obtain ⟨kvs', hw, ho⟩ := (dMap a b c).map_value_inv hO
            exact .value _ _ hw ho
    | structValue ns fs o h ho => subst ho; exact dStruct h
    | tupleStructValue fs o h ho => subst ho; exact dTS h
    | tupleValue fs o h ho => subst ho; exact dT h
    | enumValueS a ns fs o h ho => exact dE (.enumValueS a ns fs o h ho)
    | enumValueT a fs o h ho => exact dE (.enumValueT a fs o h ho)
    | enumValueU a o ho => exact dE (.enumValueU a o ho)

end Mirror
