import Verif.Spec.With
import Verif.Lemmas.Convert
import Verif.Lemmas.Panic
import Verif.Lemmas.NodeId
import Verif.Lemmas.RoundTrip

set_option linter.unusedSimpArgs false

/-!
# `fromReflectW` builds what `ConvStepW` says
-/

namespace Mirror

/-- Conversion of one field value: its function, or clone when it already has the type, or its own
`from_reflect`. -/
def convFieldW (E : Env) (W : WithFns) (f : Option (Obj → Option Obj)) (c : Bool) (t : Ty) (v : Obj) :
    Option Obj :=
  match f with
  | some g => g v
  | none => if !c && v.isTy t then some v else fromReflectW E W t v

/-- Conversion of a declared named field from its source. -/
def convNamedW (E : Env) (W : WithFns) (w : Nat → Option (Obj → Option Obj)) (c : Bool) (o : Obj)
    (i : Nat) (fd : FieldDef) : Option (String × Obj) :=
  if fd.skip then some (fd.name, Obj.hidden 0)
  else (o.field fd.name).bind fun v => (convFieldW E W (w i) c fd.ty v).map fun y => (fd.name, y)

/-- Conversion of a declared positional field from its source. -/
def convPosW (E : Env) (W : WithFns) (w : Nat → Option (Obj → Option Obj)) (c : Bool) (o : Obj)
    (i : Nat) (fd : FieldDef) : Option Obj :=
  if fd.skip then some (Obj.hidden 0)
  else (o.fieldAt i).bind fun v => convFieldW E W (w i) c fd.ty v

/-- Closes the goal "the model's per-field function is the abbreviation". -/
macro "convW_tac" : tactic => `(tactic|
  (simp only [convNamedW, convPosW, convFieldW]
   repeat' split
   all_goals first
     | (simp_all; done)
     | (simp_all; split <;> simp_all; done)
     | (simp_all; split <;> split <;> simp_all)))

theorem fromReflectW_scalar (E : Env) (W : WithFns) (k : ScalarKind) (o : Obj) :
    fromReflectW E W (.scalar k) o = if o.isTy (.scalar k) then some o else none := by
  rw [fromReflectW]

theorem fromReflectW_nonzero (E : Env) (W : WithFns) (k : IntKind) (o : Obj) :
    fromReflectW E W (.nonzero k) o =
      if o.isTy (.nonzero k) then some o
      else
        match o with
        | .scalar (.int k' n) => if k' = k ∧ n ≠ 0 then some (.nonzero k n) else none
        | _ => none := by
  cases o with
  | scalar s => cases s <;> simp [fromReflectW]
  | _ => simp [fromReflectW]

theorem fromReflectW_struct {E : Env} {W : WithFns} {n : String} {fds : List FieldDef} {c : Bool}
    (hd : E.decl n = some ⟨.struct fds, c⟩) (o : Obj) :
    fromReflectW E W (.named n) o =
      if o.kind = .struct then
        (optAll (fds.mapIdx (convNamedW E W (W n none) c o))).map (Obj.struct (.derived n))
      else none := by
  rw [fromReflectW, hd]
  dsimp only
  split
  · congr 2
    congr 1
    funext i fd
    convW_tac
  · rfl

theorem fromReflectW_tupleStruct {E : Env} {W : WithFns} {n : String} {fds : List FieldDef} {c : Bool}
    (hd : E.decl n = some ⟨.tupleStruct fds, c⟩) (o : Obj) :
    fromReflectW E W (.named n) o =
      if o.kind = .tupleStruct then
        (optAll (fds.mapIdx (convPosW E W (W n none) c o))).map (Obj.tupleStruct (.derived n))
      else none := by
  rw [fromReflectW, hd]
  dsimp only
  split
  · congr 2
    congr 1
    funext i fd
    convW_tac
  · rfl

theorem fromReflectW_enum {E : Env} {W : WithFns} {n : String} {vds : List VariantDef} {c : Bool}
    (hd : E.decl n = some ⟨.enum vds, c⟩) (o : Obj) :
    fromReflectW E W (.named n) o =
      o.variantName.bind fun vn =>
        (vds.find? fun vd => vd.name = vn).bind fun vd =>
          match vd with
          | .struct vn fds =>
            (optAll (fds.mapIdx (convNamedW E W (W n (some vn)) c o))).map (Obj.enumS (.derived n) vn)
          | .tuple vn fds =>
            (optAll (fds.mapIdx (convPosW E W (W n (some vn)) c o))).map (Obj.enumT (.derived n) vn)
          | .unit vn => some (.enumU (.derived n) vn) := by
  rw [fromReflectW, hd]
  dsimp only
  split
  · next h => rw [h]; rfl
  · next vn h =>
    rw [h]; simp only [Option.bind_some]
    split
    · next h => rw [h]; rfl
    · next h =>
      rw [h]; simp only [Option.bind_some]
      congr 2
      congr 1
      funext i fd
      convW_tac
    · next h =>
      rw [h]; simp only [Option.bind_some]
      congr 2
      congr 1
      funext i fd
      convW_tac
    · next h => rw [h]; rfl

theorem fromReflectW_nodecl {E : Env} {W : WithFns} {n : String} (hd : E.decl n = none) (o : Obj) :
    fromReflectW E W (.named n) o = none := by
  rw [fromReflectW, hd]

theorem fromReflectW_tuple (E : Env) (W : WithFns) (ts : List Ty) (o : Obj) :
    fromReflectW E W (.tuple ts) o =
      if o.kind = .tuple then
        (optAll (ts.mapIdx fun i t => (o.fieldAt i).bind fun v => fromReflectW E W t v)).map
          (Obj.tuple (.typed ts))
      else none := by
  rw [fromReflectW]
  split
  · congr 2
    congr 1
    funext i t
    split <;> simp_all
  · rfl

theorem fromReflectW_vec (E : Env) (W : WithFns) (t u : Ty) (xs : List Obj) :
    fromReflectW E W (.vec t) (.vec u xs) =
      (optAll (xs.map fun x => fromReflectW E W t x)).map (Obj.vec t) := by
  rw [fromReflectW]

theorem fromReflectW_array (E : Env) (W : WithFns) (t u : Ty) (n : Nat) (xs : List Obj) :
    fromReflectW E W (.array t n) (.vec u xs) =
      (optAll (xs.map fun x => fromReflectW E W t x)).bind fun ys =>
        if ys.length = n then some (.array t ys) else none := by
  rw [fromReflectW]
  split <;> (rename_i h; rw [h]; rfl)

theorem fromReflectW_map (E : Env) (W : WithFns) (kt vt u w : Ty) (kvs : List (Obj × Obj)) :
    fromReflectW E W (.map kt vt) (.map u w kvs) =
      (optAll (kvs.map fun p => (fromReflectW E W kt p.1).bind fun k =>
        (fromReflectW E W vt p.2).map fun v => (k, v))).map
          fun l => Obj.map kt vt (bmOfList (E.kcmp kt) l) := by
  rw [fromReflectW]
  congr 2
  apply List.map_congr_left
  intro p _
  cases fromReflectW E W kt p.1 <;> cases fromReflectW E W vt p.2 <;> rfl

theorem fromReflectW_box (E : Env) (W : WithFns) (t : Ty) (o : Obj) :
    fromReflectW E W (.box t) o = fromReflectW E W t o := by
  rw [fromReflectW]

theorem fromReflectW_value (E : Env) (W : WithFns) (o : Obj) :
    fromReflectW E W .value o = some o.toValue.toObj := by
  rw [fromReflectW]

theorem convFieldW_iff {E : Env} {W : WithFns} {f : Option (Obj → Option Obj)} {c : Bool} {t : Ty}
    {v y : Obj} : convFieldW E W f c t v = some y ↔
      FieldFromW f c (fun t o y => fromReflectW E W t o = some y) t v y := by
  cases f with
  | some g => simp [convFieldW, FieldFromW]
  | none =>
    simp only [convFieldW, FieldFromW, FieldFrom, Obj.isTy]
    cases c <;> by_cases h : v.typeOf = some t <;> simp [h, @eq_comm _ v y]

theorem namedFromW_iff {E : Env} {W : WithFns} {w : Nat → Option (Obj → Option Obj)} {c : Bool} {o : Obj} {fds : List FieldDef} {fs : List (String × Obj)} :
    optAll (fds.mapIdx (convNamedW E W w c o)) = some fs ↔
      NamedFromW w c (fun t o y => fromReflectW E W t o = some y) o fds fs := by
  constructor
  · intro h
    obtain ⟨hl, h⟩ := optAll_mapIdx_inv h
    refine ⟨?_, ?_, ?_⟩
    · apply List.ext_getElem?
      intro i
      simp only [List.getElem?_map]
      cases hfd : fds[i]? with
      | none =>
        have : fs[i]? = none := by rw [List.getElem?_eq_none_iff] at hfd ⊢; omega
        simp [this]
      | some fd =>
        obtain ⟨p, hp⟩ := align_pos hl.symm hfd
        have := h i fd p hfd hp
        simp only [convNamedW] at this
        split at this
        · cases this; simp [hp]
        · obtain ⟨v, _, this⟩ := Option.bind_eq_some_iff.mp this
          obtain ⟨y, _, rfl⟩ := Option.map_eq_some_iff.mp this
          simp [hp]
    · intro i fd p hfd hp hs
      have := h i fd p hfd hp
      simp [convNamedW, hs] at this
      simp [← this]
    · intro i fd p hfd hp hs
      have := h i fd p hfd hp
      simp only [convNamedW, hs, Bool.false_eq_true, if_false] at this
      obtain ⟨v, hv, this⟩ := Option.bind_eq_some_iff.mp this
      obtain ⟨y, hy, rfl⟩ := Option.map_eq_some_iff.mp this
      exact ⟨v, hv, convFieldW_iff.mp hy⟩
  · intro h
    have hl : fs.length = fds.length := by simpa using congrArg List.length h.names
    refine optAll_mapIdx_mk hl ?_
    intro i fd p hfd hp
    have hn : p.1 = fd.name := by
      have := congrArg (·[i]?) h.names
      simpa [hfd, hp] using this
    obtain ⟨n, x⟩ := p
    simp only at hn; subst hn
    cases hs : fd.skip with
    | true =>
      have := h.skipped i fd _ hfd hp hs
      simp only at this
      simp [convNamedW, hs, this]
    | false =>
      obtain ⟨v, hv, hf⟩ := h.shown i fd _ hfd hp hs
      simp [convNamedW, hs, hv, convFieldW_iff.mpr hf]

theorem posFromW_iff {E : Env} {W : WithFns} {w : Nat → Option (Obj → Option Obj)} {c : Bool} {o : Obj} {fds : List FieldDef} {fs : List Obj} :
    optAll (fds.mapIdx (convPosW E W w c o)) = some fs ↔
      PosFromW w c (fun t o y => fromReflectW E W t o = some y) o fds fs := by
  constructor
  · intro h
    obtain ⟨hl, h⟩ := optAll_mapIdx_inv h
    refine ⟨hl, ?_, ?_⟩
    · intro i fd p hfd hp hs
      have := h i fd p hfd hp
      simp [convPosW, hs] at this
      simp [← this]
    · intro i fd p hfd hp hs
      have := h i fd p hfd hp
      simp only [convPosW, hs, Bool.false_eq_true, if_false] at this
      obtain ⟨v, hv, hy⟩ := Option.bind_eq_some_iff.mp this
      exact ⟨v, hv, convFieldW_iff.mp hy⟩
  · intro h
    refine optAll_mapIdx_mk h.length ?_
    intro i fd p hfd hp
    cases hs : fd.skip with
    | true =>
      have := h.skipped i fd _ hfd hp hs
      simp [convPosW, hs, this]
    | false =>
      obtain ⟨v, hv, hf⟩ := h.shown i fd _ hfd hp hs
      simp [convPosW, hs, hv, convFieldW_iff.mpr hf]

theorem fromReflectW_enumValue {E : Env} {W : WithFns} {o : Obj} {y : Obj} :
    fromReflectW E W .enumValue o = some y ↔
      (∃ vn, o.variantKind = some .struct ∧ o.variantName = some vn ∧
        y = (Value.enumS vn (dynStruct o.namedIter).1 (dynStruct o.namedIter).2).toObj) ∨
      (∃ vn, o.variantKind = some .tuple ∧ o.variantName = some vn ∧
        y = (Value.enumT vn (o.posIter.map fun x => x.toValue)).toObj) ∨
      (∃ vn, o.variantKind = some .unit ∧ o.variantName = some vn ∧ y = (Value.enumU vn).toObj) := by
  rw [fromReflectW]
  cases o <;> simp [Obj.variantKind, Obj.variantName, eq_comm]

/-- One step: what `fromReflect` returns, in terms of what it returns for the parts. -/
theorem fromReflectW_step {E : Env} {W : WithFns} (hD : DeclsOK E) (t : Ty) (o y : Obj) :
    fromReflectW E W t o = some y ↔ ConvStepW E W (fun t o y => fromReflectW E W t o = some y) t o y := by
  constructor
  · intro h
    match t, h with
    | .scalar k, h =>
      rw [fromReflectW_scalar] at h
      split at h
      · next hty =>
        cases h
        simp only [Obj.isTy, beq_iff_eq] at hty
        unfold Obj.typeOf at hty
        split at hty <;> simp at hty
        subst hty; exact .other _ _ _ nofun (.scalar _)
      · cases h
    | .nonzero k, h =>
      rw [fromReflectW_nonzero] at h
      split at h
      · next hty =>
        cases h
        simp only [Obj.isTy, beq_iff_eq] at hty
        unfold Obj.typeOf at hty
        split at hty <;> simp at hty
        subst hty; exact .other _ _ _ nofun (.nonzero _ _)
      · split at h
        · split at h
          · next hh => cases h; obtain ⟨rfl, h0⟩ := hh; exact .other _ _ _ nofun (.nonzeroInt _ _ h0)
          · cases h
        · cases h
    | .named n, h =>
      cases hd : E.decl n with
      | none => rw [fromReflectW_nodecl hd] at h; cases h
      | some d =>
        obtain ⟨sh, c⟩ := d
        cases sh with
        | struct fds =>
          rw [fromReflectW_struct hd] at h
          split at h
          · next hk =>
            obtain ⟨fs, hfs, rfl⟩ := Option.map_eq_some_iff.mp h
            exact .struct n fds c o fs hd hk (namedFromW_iff.mp hfs)
          · cases h
        | tupleStruct fds =>
          rw [fromReflectW_tupleStruct hd] at h
          split at h
          · next hk =>
            obtain ⟨fs, hfs, rfl⟩ := Option.map_eq_some_iff.mp h
            exact .tupleStruct n fds c o fs hd hk (posFromW_iff.mp hfs)
          · cases h
        | enum vds =>
          rw [fromReflectW_enum hd] at h
          obtain ⟨vn, hvn, h1⟩ := Option.bind_eq_some_iff.mp h
          obtain ⟨vd, hvd, h2⟩ := Option.bind_eq_some_iff.mp h1
          clear h1
          have hm := List.mem_of_find?_eq_some hvd
          have hname : vd.name = vn := by simpa using List.find?_some hvd
          cases vd with
          | struct vn' fds =>
            simp only [VariantDef.name] at hname; subst hname
            obtain ⟨fs, hfs, rfl⟩ := Option.map_eq_some_iff.mp h2
            exact .enumS n vds c _ fds o fs hd hm hvn (namedFromW_iff.mp hfs)
          | tuple vn' fds =>
            simp only [VariantDef.name] at hname; subst hname
            obtain ⟨fs, hfs, rfl⟩ := Option.map_eq_some_iff.mp h2
            exact .enumT n vds c _ fds o fs hd hm hvn (posFromW_iff.mp hfs)
          | unit vn' =>
            simp only [VariantDef.name] at hname; subst hname
            cases h2; exact .enumU n vds c _ o hd hm hvn
    | .tuple ts, h =>
      rw [fromReflectW_tuple] at h
      split at h
      · next hk =>
        obtain ⟨fs, hfs, rfl⟩ := Option.map_eq_some_iff.mp h
        obtain ⟨hl, hi⟩ := optAll_mapIdx_inv hfs
        exact .other _ _ _ nofun <| .tuple ts o fs hk hl fun i t x ht hx => Option.bind_eq_some_iff.mp (hi i t x ht hx)
      · cases h
    | .vec t, h =>
      cases o <;> simp [fromReflectW] at h
      obtain ⟨ys, hys, rfl⟩ := h
      obtain ⟨hl, hi⟩ := optAll_map_inv hys
      exact .other _ _ _ nofun <| .vec _ _ _ _ (forall2_of_index hl hi)
    | .array t n, h =>
      cases o <;> (first | (simp [fromReflectW] at h; done) | skip)
      rw [fromReflectW_array] at h
      obtain ⟨ys, hys, h⟩ := Option.bind_eq_some_iff.mp h
      split at h
      · next hn =>
        obtain ⟨hl, hi⟩ := optAll_map_inv hys
        cases h; rw [hl] at hn; subst hn
        exact .other _ _ _ nofun <| .array _ _ _ _ (forall2_of_index hl hi)
      · cases h
    | .map kt vt, h =>
      cases o <;> (first | (simp [fromReflectW] at h; done) | skip)
      rw [fromReflectW_map] at h
      obtain ⟨ys, hys, rfl⟩ := Option.map_eq_some_iff.mp h
      obtain ⟨hl, hi⟩ := optAll_map_inv hys
      refine .other _ _ _ nofun <| .map _ _ _ _ _ _ (forall2_of_index hl fun i x y hx hy => ?_)
      obtain ⟨k, hk, hh⟩ := Option.bind_eq_some_iff.mp (hi i x y hx hy)
      obtain ⟨v, hv, rfl⟩ := Option.map_eq_some_iff.mp hh
      exact ⟨hk, hv⟩
    | .box t, h => rw [fromReflectW_box] at h; exact .other _ _ _ nofun <| .box _ _ _ h
    | .value, h => rw [fromReflectW_value] at h; cases h; exact .other _ _ _ nofun <| .value _
    | .structValue, h =>
      rw [fromReflectW] at h
      split at h
      · next hk =>
        cases h
        exact .other _ _ _ nofun <| .structValue o o.namedIter hk (nextNamed_yields (.inl hk))
      · cases h
    | .tupleStructValue, h =>
      rw [fromReflectW] at h
      split at h
      · next hk =>
        cases h
        exact .other _ _ _ nofun <| .tupleStructValue o o.posIter hk (nextPos_yields (.inl hk))
      · cases h
    | .tupleValue, h =>
      rw [fromReflectW] at h
      split at h
      · next hk =>
        cases h
        exact .other _ _ _ nofun <| .tupleValue o o.posIter hk (nextPos_yields (.inr (.inl hk)))
      · cases h
    | .enumValue, h =>
      rcases fromReflectW_enumValue.mp h with ⟨vn, hk, hn, rfl⟩ | ⟨vn, hk, hn, rfl⟩ | ⟨vn, hk, hn, rfl⟩
      · exact .other _ _ _ nofun <| .enumValueS o vn _ o.namedIter hk hn (nextNamed_yields (.inr hk)) rfl
      · refine .other _ _ _ nofun <| .enumValueT o vn o.posIter hk hn ?_
        have := nextVariant_yields o
        rwa [Obj.variantIter, hk] at this
      · exact .other _ _ _ nofun <| .enumValueU o vn hk hn
  · intro h
    cases h with
    | struct n fds c o fs hd hk h => rw [fromReflectW_struct hd, if_pos hk, namedFromW_iff.mpr h]; rfl
    | tupleStruct n fds c o fs hd hk h =>
      rw [fromReflectW_tupleStruct hd, if_pos hk, posFromW_iff.mpr h]; rfl
    | enumS n vds c vn fds o fs hd hm hn h =>
      have : vds.find? (fun d => d.name = vn) = some (.struct vn fds) :=
        find_variant (hD.variant_names n vds c hd) hm
      rw [fromReflectW_enum hd, hn, Option.bind_some, this, Option.bind_some]
      simp only [namedFromW_iff.mpr h]; rfl
    | enumT n vds c vn fds o fs hd hm hn h =>
      have : vds.find? (fun d => d.name = vn) = some (.tuple vn fds) :=
        find_variant (hD.variant_names n vds c hd) hm
      rw [fromReflectW_enum hd, hn, Option.bind_some, this, Option.bind_some]
      simp only [posFromW_iff.mpr h]; rfl
    | enumU n vds c vn o hd hm hn =>
      have : vds.find? (fun d => d.name = vn) = some (.unit vn) :=
        find_variant (hD.variant_names n vds c hd) hm
      rw [fromReflectW_enum hd, hn, Option.bind_some, this, Option.bind_some]
    | other t o y hne h =>
      cases h with
      | struct n => exact absurd rfl (hne _)
      | tupleStruct n => exact absurd rfl (hne _)
      | enumS n => exact absurd rfl (hne _)
      | enumT n => exact absurd rfl (hne _)
      | enumU n => exact absurd rfl (hne _)
      | scalar s => rw [fromReflectW_scalar]; simp [Obj.isTy, Obj.typeOf]
      | nonzero k n => rw [fromReflectW_nonzero]; simp [Obj.isTy, Obj.typeOf]
      | nonzeroInt k n h => rw [fromReflectW_nonzero]; simp [Obj.isTy, Obj.typeOf, h]
      | tuple ts o fs hk hl h =>
        rw [fromReflectW_tuple, if_pos hk]
        rw [optAll_mapIdx_mk hl fun i t x ht hx => Option.bind_eq_some_iff.mpr (h i t x ht hx)]
        rfl
      | vec t u xs ys h =>
        obtain ⟨hl, hi⟩ := index_of_forall2 h
        rw [fromReflectW_vec, optAll_map_mk hl hi]; rfl
      | array t u xs ys h =>
        obtain ⟨hl, hi⟩ := index_of_forall2 h
        rw [fromReflectW_array, optAll_map_mk hl hi]; simp [hl]
      | map kt vt u w kvs l h =>
        obtain ⟨hl, hi⟩ := index_of_forall2 h
        rw [fromReflectW_map, optAll_map_mk hl]
        · rfl
        · intro i x y hx hy
          obtain ⟨h1, h2⟩ := hi i x y hx hy
          simp [h1, h2]
      | box t o y h => rw [fromReflectW_box]; exact h
      | value o => rw [fromReflectW_value]
      | structValue o l hk h =>
        obtain rfl := yields_inj h (nextNamed_yields (.inl hk))
        rw [fromReflectW, if_pos hk]; rfl
      | tupleStructValue o l hk h =>
        obtain rfl := yields_inj h (nextPos_yields (.inl hk))
        rw [fromReflectW, if_pos hk]
      | tupleValue o l hk h =>
        obtain rfl := yields_inj h (nextPos_yields (.inr (.inl hk)))
        rw [fromReflectW, if_pos hk]
      | enumValueS o vn s l hk hn h hs =>
        obtain rfl := yields_inj h (nextNamed_yields (.inr hk))
        subst hs
        exact fromReflectW_enumValue.mpr (.inl ⟨vn, hk, hn, rfl⟩)
      | enumValueT o vn l hk hn h =>
        have := nextVariant_yields o
        rw [Obj.variantIter, hk] at this
        have := yields_inj h this
        have : l = o.posIter := (List.map_injective_iff.mpr fun a b h => by cases h; rfl) this
        subst this
        exact fromReflectW_enumValue.mpr (.inr (.inl ⟨vn, hk, hn, rfl⟩))
      | enumValueU o vn hk hn => exact fromReflectW_enumValue.mpr (.inr (.inr ⟨vn, hk, hn, rfl⟩))

/-- The parts on which a conversion step depends are smaller. -/
theorem ConvStepW.mono {E : Env} {W : WithFns} {conv conv' : Ty → Obj → Obj → Prop} {t : Ty} {o y : Obj}
    (hc : ∀ t' o' y', Prod.Lex (· < ·) (· < ·) (sizeOf o', sizeOf t') (sizeOf o, sizeOf t) →
      conv t' o' y' → conv' t' o' y')
    (h : ConvStepW E W conv t o y) : ConvStepW E W conv' t o y := by
  have field : ∀ {f c t v y}, sizeOf v < sizeOf o → FieldFromW f c conv t v y →
      FieldFromW f c conv' t v y := by
    intro f c t v y hv h
    rcases h with h | ⟨h1, h2⟩
    · exact .inl h
    · exact .inr ⟨h1, h2.mono (hc _ _ _ (.left _ _ hv))⟩
  have named : ∀ {w c fds fs}, NamedFromW w c conv o fds fs → NamedFromW w c conv' o fds fs := by
    intro w c fds fs h
    refine ⟨h.names, h.skipped, fun i fd p hfd hp hs => ?_⟩
    obtain ⟨v, hv, hf⟩ := h.shown i fd p hfd hp hs
    exact ⟨v, hv, field (Obj.field_size hv) hf⟩
  have pos : ∀ {w c fds fs}, PosFromW w c conv o fds fs → PosFromW w c conv' o fds fs := by
    intro w c fds fs h
    refine ⟨h.length, h.skipped, fun i fd p hfd hp hs => ?_⟩
    obtain ⟨v, hv, hf⟩ := h.shown i fd p hfd hp hs
    exact ⟨v, hv, field (Obj.fieldAt_size hv) hf⟩
  cases h with
  | struct n fds c o fs hd hk h => exact .struct n fds c o fs hd hk (named h)
  | tupleStruct n fds c o fs hd hk h => exact .tupleStruct n fds c o fs hd hk (pos h)
  | enumS n vds c vn fds o fs hd hm hn h => exact .enumS n vds c vn fds o fs hd hm hn (named h)
  | enumT n vds c vn fds o fs hd hm hn h => exact .enumT n vds c vn fds o fs hd hm hn (pos h)
  | enumU n vds c vn o hd hm hn => exact .enumU n vds c vn o hd hm hn
  | other t o y hne h => exact .other t o y hne (h.mono hc)

theorem fromReflectW_conv {E : Env} {W : WithFns} (hD : DeclsOK E) (t : Ty) (o y : Obj)
    (h : fromReflectW E W t o = some y) : ConvertsToW E W t o y := by
  intro R hR
  apply hR
  refine ((fromReflectW_step hD t o y).mp h).mono fun t' o' y' hlt h' => ?_
  exact fromReflectW_conv hD t' o' y' h' R hR
termination_by (sizeOf o, sizeOf t)
decreasing_by exact hlt

theorem convertsToW_iff {E : Env} {W : WithFns} (hD : DeclsOK E) {t : Ty} {o y : Obj} :
    ConvertsToW E W t o y ↔ fromReflectW E W t o = some y :=
  ⟨fun h => h (fun t o y => fromReflectW E W t o = some y)
    fun t o y => (fromReflectW_step hD t o y).mpr, fromReflectW_conv hD t o y⟩

/-- With standard functions one step is the step without functions. -/
theorem convStepW_standard {E : Env} {W : WithFns} (hW : W.Standard E) {t : Ty} {o y : Obj} :
    ConvStepW E W (fun t o y => fromReflect E t o = some y) t o y ↔
      ConvStep E (fun t o y => fromReflect E t o = some y) t o y := by
  have field : ∀ {f : Option (Obj → Option Obj)} {c t v y},
      (∀ g, f = some g → g v = if c = false ∧ v.typeOf = some t then some v else fromReflect E t v) →
      (FieldFromW f c (fun t o y => fromReflect E t o = some y) t v y ↔
        FieldFrom c (fun t o y => fromReflect E t o = some y) t v y) := by
    intro f c t v y hf
    cases f with
    | none => simp [FieldFromW]
    | some g =>
      have := hf g rfl
      simp only [FieldFromW, Option.some.injEq, exists_eq_left', this, reduceCtorEq, false_and,
        or_false, FieldFrom]
      by_cases hh : c = false ∧ v.typeOf = some t
      · simp [hh, eq_comm]
      · rw [if_neg hh]
        constructor
        · exact fun h => .inr ⟨hh, h⟩
        · rintro (⟨a, b, _⟩ | ⟨_, h⟩)
          · exact absurd ⟨a, b⟩ hh
          · exact h
  have named : ∀ {w c fds fs}, (∀ (i : Nat) fd g v, fds[i]? = some fd → w i = some g →
        g v = if c = false ∧ v.typeOf = some fd.ty then some v else fromReflect E fd.ty v) →
      (NamedFromW w c (fun t o y => fromReflect E t o = some y) o fds fs ↔
        NamedFrom c (fun t o y => fromReflect E t o = some y) o fds fs) := by
    intro w c fds fs hw
    constructor
    · intro h
      refine ⟨h.names, h.skipped, fun i fd p hfd hp hs => ?_⟩
      obtain ⟨v, hv, hf⟩ := h.shown i fd p hfd hp hs
      exact ⟨v, hv, (field fun g hg => hw i fd g v hfd hg).mp hf⟩
    · intro h
      refine ⟨h.names, h.skipped, fun i fd p hfd hp hs => ?_⟩
      obtain ⟨v, hv, hf⟩ := h.shown i fd p hfd hp hs
      exact ⟨v, hv, (field fun g hg => hw i fd g v hfd hg).mpr hf⟩
  have pos : ∀ {w c fds fs}, (∀ (i : Nat) fd g v, fds[i]? = some fd → w i = some g →
        g v = if c = false ∧ v.typeOf = some fd.ty then some v else fromReflect E fd.ty v) →
      (PosFromW w c (fun t o y => fromReflect E t o = some y) o fds fs ↔
        PosFrom c (fun t o y => fromReflect E t o = some y) o fds fs) := by
    intro w c fds fs hw
    constructor
    · intro h
      refine ⟨h.length, h.skipped, fun i fd p hfd hp hs => ?_⟩
      obtain ⟨v, hv, hf⟩ := h.shown i fd p hfd hp hs
      exact ⟨v, hv, (field fun g hg => hw i fd g v hfd hg).mp hf⟩
    · intro h
      refine ⟨h.length, h.skipped, fun i fd p hfd hp hs => ?_⟩
      obtain ⟨v, hv, hf⟩ := h.shown i fd p hfd hp hs
      exact ⟨v, hv, (field fun g hg => hw i fd g v hfd hg).mpr hf⟩
  constructor
  · intro h
    cases h with
    | struct n fds c o fs hd hk h =>
      exact .struct n fds c o fs hd hk ((named fun i fd g v => hW.struct n fds c i fd g v hd).mp h)
    | tupleStruct n fds c o fs hd hk h =>
      exact .tupleStruct n fds c o fs hd hk
        ((pos fun i fd g v => hW.tupleStruct n fds c i fd g v hd).mp h)
    | enumS n vds c vn fds o fs hd hm hn h =>
      exact .enumS n vds c vn fds o fs hd hm hn
        ((named fun i fd g v => hW.enumS n vds c vn fds i fd g v hd hm).mp h)
    | enumT n vds c vn fds o fs hd hm hn h =>
      exact .enumT n vds c vn fds o fs hd hm hn
        ((pos fun i fd g v => hW.enumT n vds c vn fds i fd g v hd hm).mp h)
    | enumU n vds c vn o hd hm hn => exact .enumU n vds c vn o hd hm hn
    | other t o y hne h => exact h
  · intro h
    by_cases ht : ∃ n, t = .named n
    · obtain ⟨n, rfl⟩ := ht
      cases h with
      | struct n fds c o fs hd hk h =>
        exact .struct n fds c o fs hd hk ((named fun i fd g v => hW.struct n fds c i fd g v hd).mpr h)
      | tupleStruct n fds c o fs hd hk h =>
        exact .tupleStruct n fds c o fs hd hk
          ((pos fun i fd g v => hW.tupleStruct n fds c i fd g v hd).mpr h)
      | enumS n vds c vn fds o fs hd hm hn h =>
        exact .enumS n vds c vn fds o fs hd hm hn
          ((named fun i fd g v => hW.enumS n vds c vn fds i fd g v hd hm).mpr h)
      | enumT n vds c vn fds o fs hd hm hn h =>
        exact .enumT n vds c vn fds o fs hd hm hn
          ((pos fun i fd g v => hW.enumT n vds c vn fds i fd g v hd hm).mpr h)
      | enumU n vds c vn o hd hm hn => exact .enumU n vds c vn o hd hm hn
    · exact .other t o y (fun n hn => ht ⟨n, hn⟩) h

theorem fromReflectW_standard {E : Env} {W : WithFns} (hD : DeclsOK E) (hW : W.Standard E) (t : Ty)
    (o : Obj) : fromReflectW E W t o = fromReflect E t o := by
  apply Option.ext
  intro y
  constructor
  · intro h
    refine (fromReflect_step hD t o y).mpr ((convStepW_standard hW).mp ?_)
    refine ((fromReflectW_step hD t o y).mp h).mono fun t' o' y' hlt h' => ?_
    rw [← fromReflectW_standard hD hW t' o']; exact h'
  · intro h
    refine (fromReflectW_step hD t o y).mpr ?_
    refine ((convStepW_standard hW).mpr ((fromReflect_step hD t o y).mp h)).mono
      fun t' o' y' hlt h' => ?_
    rw [fromReflectW_standard hD hW t' o']; exact h'
termination_by (sizeOf o, sizeOf t)
decreasing_by all_goals exact hlt

theorem fromReflectW_sound {E : Env} {W : WithFns} (hD : DeclsOK E) (hO : OrdLaws E) (hW : W.Typed E)
    (t : Ty) (o y : Obj) (ho : o.OK E) (h : fromReflectW E W t o = some y) : HasTy E t y := by
  have ih : ∀ t' o' y', Prod.Lex (· < ·) (· < ·) (sizeOf o', sizeOf t') (sizeOf o, sizeOf t) →
      o'.OK E → fromReflectW E W t' o' = some y' → HasTy E t' y' :=
    fun t' o' y' hlt ho' h' => fromReflectW_sound hD hO hW t' o' y' ho' h'
  have field : ∀ {f : Option (Obj → Option Obj)} {c : Bool} {t : Ty} {v y : Obj},
      (∀ g, f = some g → ∀ y, g v = some y → HasTy E t y) → sizeOf v < sizeOf o → v.OK E →
      FieldFromW f c (fun t o y => fromReflectW E W t o = some y) t v y → HasTy E t y := by
    intro f c t v y hf hlt hv h
    rcases h with ⟨g, hg, h⟩ | ⟨_, ⟨_, hty, rfl⟩ | ⟨_, h⟩⟩
    · exact hf g hg y h
    · exact hv.isTy hO (by simp [Obj.isTy, hty])
    · exact ih t v y (.left _ _ hlt) hv h
  have hs := (fromReflectW_step hD t o y).mp h
  clear h
  cases hs with
  | struct n fds c o fs hd hk h =>
    refine .struct n fds c fs hd h.names (fun i fd p hfd hp hs => ?_) (fun i fd p hfd hp hs => ?_)
    · rw [h.skipped i fd p hfd hp hs]; rfl
    · obtain ⟨v, hv, hf⟩ := h.shown i fd p hfd hp hs
      exact field (fun g hg y => hW.struct n fds c i fd g v y hd hfd hg) (Obj.field_size hv)
        (OK_field ho hv) hf
  | tupleStruct n fds c o fs hd hk h =>
    refine .tupleStruct n fds c fs hd h.length (fun i fd p hfd hp hs => ?_) (fun i fd p hfd hp hs => ?_)
    · rw [h.skipped i fd p hfd hp hs]; rfl
    · obtain ⟨v, hv, hf⟩ := h.shown i fd p hfd hp hs
      exact field (fun g hg y => hW.tupleStruct n fds c i fd g v y hd hfd hg) (Obj.fieldAt_size hv)
        (OK_fieldAt ho hv) hf
  | enumS n vds c vn fds o fs hd hm hn h =>
    refine .enumS n vds c vn fds fs hd hm h.names (fun i fd p hfd hp hs => ?_)
      (fun i fd p hfd hp hs => ?_)
    · rw [h.skipped i fd p hfd hp hs]; rfl
    · obtain ⟨v, hv, hf⟩ := h.shown i fd p hfd hp hs
      exact field (fun g hg y => hW.enumS n vds c vn fds i fd g v y hd hm hfd hg) (Obj.field_size hv)
        (OK_field ho hv) hf
  | enumT n vds c vn fds o fs hd hm hn h =>
    refine .enumT n vds c vn fds fs hd hm h.length (fun i fd p hfd hp hs => ?_)
      (fun i fd p hfd hp hs => ?_)
    · rw [h.skipped i fd p hfd hp hs]; rfl
    · obtain ⟨v, hv, hf⟩ := h.shown i fd p hfd hp hs
      exact field (fun g hg y => hW.enumT n vds c vn fds i fd g v y hd hm hfd hg)
        (Obj.fieldAt_size hv) (OK_fieldAt ho hv) hf
  | enumU n vds c vn o hd hm hn => exact .enumU n vds c vn hd hm
  | other t o y hne h =>
    cases h with
    | tuple ts o fs hk hl h =>
      refine .tuple ts fs hl fun i t x ht hx => ?_
      obtain ⟨v, hv, hy⟩ := h i t x ht hx
      have hsize := Obj.fieldAt_size hv
      exact ih t v x (.left _ _ hsize) (OK_fieldAt ho hv) hy
    | vec t u xs ys h =>
      obtain ⟨hl, hi⟩ := index_of_forall2 h
      refine .vec t ys fun y hy => ?_
      obtain ⟨i, hyi⟩ := List.getElem?_of_mem hy
      obtain ⟨x, hx⟩ := align_pos hl hyi
      have hsize := sizeOf_lt_of_getElem? hx
      exact ih t x y (.left _ _ (by simp; omega)) (ho.parts (List.mem_of_getElem? hx)) (hi i x y hx hyi)
    | array t u xs ys h =>
      obtain ⟨hl, hi⟩ := index_of_forall2 h
      rw [← hl]
      refine .array t ys fun y hy => ?_
      obtain ⟨i, hyi⟩ := List.getElem?_of_mem hy
      obtain ⟨x, hx⟩ := align_pos hl hyi
      have hsize := sizeOf_lt_of_getElem? hx
      exact ih t x y (.left _ _ (by simp; omega)) (ho.parts (List.mem_of_getElem? hx)) (hi i x y hx hyi)
    | map kt vt u w kvs l h =>
      obtain ⟨hl, hi⟩ := index_of_forall2 h
      have hall : ∀ p ∈ l, HasTy E kt p.1 ∧ HasTy E vt p.2 := by
        intro y hy
        obtain ⟨i, hyi⟩ := List.getElem?_of_mem hy
        obtain ⟨x, hx⟩ := align_pos hl hyi
        have hm := List.mem_of_getElem? hx
        have h1 := sizeOf_fst_lt_of_mem hm
        have h2 := sizeOf_snd_lt_of_mem hm
        obtain ⟨hk, hv⟩ := hi i x y hx hyi
        exact ⟨ih kt x.1 y.1 (.left _ _ (by simp; omega)) (ho.parts (by
            simp only [Obj.parts, List.mem_append]; exact .inl (List.mem_map_of_mem hm))) hk,
          ih vt x.2 y.2 (.left _ _ (by simp; omega)) (ho.parts (by
            simp only [Obj.parts, List.mem_append]; exact .inr (List.mem_map_of_mem hm))) hv⟩
      exact .map kt vt _ (bmOfList_sorted (hO.cmpOn kt) fun p hp => (hall p hp).1)
        (bmOfList_keys (hO.cmpOn kt) fun p hp => (hall p hp).1)
        (bmOfList_vals fun p hp => (hall p hp).2)
    | box t o y h => exact .box t y (ih t o y (.right _ (by simp)) ho h)
    | struct n => exact absurd rfl (hne _)
    | tupleStruct n => exact absurd rfl (hne _)
    | enumS n => exact absurd rfl (hne _)
    | enumT n => exact absurd rfl (hne _)
    | enumU n => exact absurd rfl (hne _)
    | _ =>
      refine fromReflect_sound hO _ _ ho ((fromReflect_step hD _ _ _).mpr ?_)
      first
      | exact .scalar _
      | exact .nonzero _ _
      | exact .nonzeroInt _ _ (by assumption)
      | exact .value _
      | exact .structValue _ _ (by assumption) (by assumption)
      | exact .tupleStructValue _ _ (by assumption) (by assumption)
      | exact .tupleValue _ _ (by assumption) (by assumption)
      | exact .enumValueS _ _ _ _ (by assumption) (by assumption) (by assumption) (by assumption)
      | exact .enumValueT _ _ _ (by assumption) (by assumption) (by assumption)
      | exact .enumValueU _ _ (by assumption) (by assumption)
termination_by (sizeOf o, sizeOf t)
decreasing_by exact hlt

theorem bmInsert_fst_mem {κ α : Type} {cmp : κ → κ → Ordering} {k : κ} {v : α} {l : List (κ × α)} {x : κ}
    (hx : x ∈ (bmInsert cmp k v l).map (·.1)) : x = k ∨ x ∈ l.map (·.1) := by
  induction l with
  | nil => simpa [bmInsert] using hx
  | cons p r ih =>
    unfold bmInsert at hx
    cases hc : cmp k p.1 <;> rw [hc] at hx <;> simp at hx ⊢ <;> grind

theorem bmOfList_fst_mem {κ α : Type} {cmp : κ → κ → Ordering} {l : List (κ × α)} {x : κ}
    (hx : x ∈ (bmOfList cmp l).map (·.1)) : x ∈ l.map (·.1) := by
  have : ∀ (l m : List (κ × α)), x ∈ (l.foldl (fun m p => bmInsert cmp p.1 p.2 m) m).map (·.1) →
      x ∈ l.map (·.1) ∨ x ∈ m.map (·.1) := by
    intro l
    induction l with
    | nil => intro m h; exact .inr h
    | cons p r ih =>
      intro m h
      rcases ih _ h with h | h
      · exact .inl (by rw [List.map_cons]; exact List.mem_cons_of_mem _ h)
      · rcases bmInsert_fst_mem h with h | h
        · exact .inl (by rw [List.map_cons, h]; exact List.mem_cons_self)
        · exact .inr h
  rcases this l [] hx with h | h
  · exact h
  · cases h

theorem Value.toObj_not_named (v : Value) (n : String) : v.toObj.typeOf ≠ some (.named n) := by
  cases v <;> simp [Value.toObj, Obj.typeOf]

/-- A `Value` holds no derived value, so it has no field with a function. -/
theorem Value.toObj_honoured {E : Env} {W : WithFns} (v : Value) : v.toObj.Everywhere (W.Honoured E) := by
  generalize hn : sizeOf v.toObj = n
  induction n using Nat.strongRecOn generalizing v with
  | ind n ih =>
    subst hn
    refine .mk _ (.other _ v.toObj_not_named) fun x hx => ?_
    have hsz := Obj.parts_size hx
    obtain ⟨w, rfl⟩ := Value.toObj_parts hx
    exact ih _ hsz w rfl

theorem fromReflectW_honoured {E : Env} {W : WithFns} (hD : DeclsOK E)
    (hW : ∀ n vn i f v y, W n vn i = some f → f v = some y → y.Everywhere (W.Honoured E))
    (t : Ty) (o y : Obj) (hok : o.OK E) (ho : o.Everywhere (W.Honoured E))
    (h : fromReflectW E W t o = some y) : y.Everywhere (W.Honoured E) := by
  have ih : ∀ t' o' y', Prod.Lex (· < ·) (· < ·) (sizeOf o', sizeOf t') (sizeOf o, sizeOf t) →
      o'.OK E → o'.Everywhere (W.Honoured E) → fromReflectW E W t' o' = some y' →
      y'.Everywhere (W.Honoured E) :=
    fun t' o' y' hlt hok' ho' h' => fromReflectW_honoured hD hW t' o' y' hok' ho' h'
  have field : ∀ {n vn i} {c : Bool} {t : Ty} {v y : Obj}, v ∈ o.parts →
      FieldFromW (W n vn i) c (fun t o y => fromReflectW E W t o = some y) t v y →
      y.Everywhere (W.Honoured E) ∧ (∀ f, W n vn i = some f → ∃ v, f v = some y) := by
    intro n vn i c t v y hv h
    rcases h with ⟨g, hg, h⟩ | ⟨hnone, ⟨_, hty, rfl⟩ | ⟨_, h⟩⟩
    · exact ⟨hW n vn i g v y hg h, fun f hf => ⟨v, by rw [hg] at hf; cases hf; exact h⟩⟩
    · exact ⟨ho.parts hv, fun f hf => by rw [hnone] at hf; cases hf⟩
    · exact ⟨ih t v y (.left _ _ (Obj.parts_size hv)) (hok.parts hv) (ho.parts hv) h,
        fun f hf => by rw [hnone] at hf; cases hf⟩
  have named : ∀ {n vn c fds fs}, NamedFromW (W n vn) c (fun t o y => fromReflectW E W t o = some y)
        o fds fs →
      (∀ (i : Nat) fd p f, fds[i]? = some fd → fs[i]? = some p → fd.skip = false →
        W n vn i = some f → ∃ v, f v = some p.2) ∧
      ∀ x ∈ (visFields fs).map (·.2), x.Everywhere (W.Honoured E) := by
    intro n vn c fds fs h
    constructor
    · intro i fd p f hfd hp hs hf
      obtain ⟨v, hv, hff⟩ := h.shown i fd p hfd hp hs
      exact (field (Obj.field_parts hv) hff).2 f hf
    · intro x hx
      obtain ⟨p, hp, rfl⟩ := List.mem_map.mp hx
      simp only [visFields, List.mem_filter] at hp
      obtain ⟨hp, hvis⟩ := hp
      obtain ⟨i, hi⟩ := List.getElem?_of_mem hp
      have hl : fs.length = fds.length := by simpa using congrArg List.length h.names
      obtain ⟨fd, hfd⟩ := align_pos hl hi
      cases hs : fd.skip with
      | true => rw [h.skipped i fd p hfd hi hs] at hvis; simp [Obj.isHidden] at hvis
      | false =>
        obtain ⟨v, hv, hff⟩ := h.shown i fd p hfd hi hs
        exact (field (Obj.field_parts hv) hff).1
  have atParts : ∀ {i v}, o.fieldAt i = some v → v ∈ o.parts := by
    intro i v hv
    obtain ⟨t, ht⟩ := hok
    exact Obj.fieldAt_parts ht.dynVis hv
  have pos : ∀ {n vn c fds fs}, PosFromW (W n vn) c (fun t o y => fromReflectW E W t o = some y)
        o fds fs →
      (∀ (i : Nat) fd x f, fds[i]? = some fd → fs[i]? = some x → fd.skip = false →
        W n vn i = some f → ∃ v, f v = some x) ∧
      ∀ x ∈ visPos fs, x.Everywhere (W.Honoured E) := by
    intro n vn c fds fs h
    constructor
    · intro i fd p f hfd hp hs hf
      obtain ⟨v, hv, hff⟩ := h.shown i fd p hfd hp hs
      exact (field (atParts hv) hff).2 f hf
    · intro x hp
      simp only [visPos, List.mem_filter] at hp
      obtain ⟨hp, hvis⟩ := hp
      obtain ⟨i, hi⟩ := List.getElem?_of_mem hp
      obtain ⟨fd, hfd⟩ := align_pos h.length hi
      cases hs : fd.skip with
      | true => rw [h.skipped i fd x hfd hi hs] at hvis; simp [Obj.isHidden] at hvis
      | false =>
        obtain ⟨v, hv, hff⟩ := h.shown i fd x hfd hi hs
        exact (field (atParts hv) hff).1
  have hs := (fromReflectW_step hD t o y).mp h
  clear h
  cases hs with
  | struct n fds c o fs hd hk h =>
    exact .mk _ (.struct n fds c fs hd (named h).1) (named h).2
  | tupleStruct n fds c o fs hd hk h =>
    exact .mk _ (.tupleStruct n fds c fs hd (pos h).1) (pos h).2
  | enumS n vds c vn fds o fs hd hm hn h =>
    exact .mk _ (.enumS n vds c vn fds fs hd hm (named h).1) (named h).2
  | enumT n vds c vn fds o fs hd hm hn h =>
    exact .mk _ (.enumT n vds c vn fds fs hd hm (pos h).1) (pos h).2
  | enumU n vds c vn o hd hm hn => exact .mk _ (.enumU n vn) nofun
  | other t o y hne h =>
    cases h with
    | tuple ts o fs hk hl h =>
      refine .mk _ (.other _ (by simp [Obj.typeOf])) fun x hx => ?_
      simp only [Obj.parts, visPos, List.mem_filter] at hx
      obtain ⟨i, hi⟩ := List.getElem?_of_mem hx.1
      obtain ⟨t, ht⟩ := align_pos hl hi
      obtain ⟨v, hv, hy⟩ := h i t x ht hi
      have hp := atParts hv
      exact ih t v x (.left _ _ (Obj.parts_size hp)) (hok.parts hp) (ho.parts hp) hy
    | vec t u xs ys h =>
      obtain ⟨hl, hi⟩ := index_of_forall2 h
      refine .mk _ (.other _ (by simp [Obj.typeOf])) fun y hy => ?_
      obtain ⟨i, hyi⟩ := List.getElem?_of_mem (show y ∈ ys from hy)
      obtain ⟨x, hx⟩ := align_pos hl hyi
      have hp : x ∈ (Obj.vec u xs).parts := List.mem_of_getElem? hx
      exact ih t x y (.left _ _ (Obj.parts_size hp)) (hok.parts hp) (ho.parts hp) (hi i x y hx hyi)
    | array t u xs ys h =>
      obtain ⟨hl, hi⟩ := index_of_forall2 h
      refine .mk _ (.other _ (by simp [Obj.typeOf])) fun y hy => ?_
      obtain ⟨i, hyi⟩ := List.getElem?_of_mem (show y ∈ ys from hy)
      obtain ⟨x, hx⟩ := align_pos hl hyi
      have hp : x ∈ (Obj.vec u xs).parts := List.mem_of_getElem? hx
      exact ih t x y (.left _ _ (Obj.parts_size hp)) (hok.parts hp) (ho.parts hp) (hi i x y hx hyi)
    | map kt vt u w kvs l h =>
      obtain ⟨hl, hi⟩ := index_of_forall2 h
      refine .mk _ (.other _ (by simp [Obj.typeOf])) fun y hy => ?_
      simp only [Obj.parts, List.mem_append] at hy
      rcases hy with hy | hy
      · obtain ⟨q, hq, rfl⟩ := List.mem_map.mp (bmOfList_fst_mem hy)
        obtain ⟨i, hqi⟩ := List.getElem?_of_mem hq
        obtain ⟨x, hx⟩ := align_pos hl hqi
        have hp : x.1 ∈ (Obj.map u w kvs).parts := map_fst_parts (List.mem_of_getElem? hx) u w
        exact ih kt x.1 q.1 (.left _ _ (Obj.parts_size hp)) (hok.parts hp) (ho.parts hp)
          (hi i x q hx hqi).1
      · obtain ⟨q, hq, rfl⟩ := List.mem_map.mp (bmOfList_snd_mem hy)
        obtain ⟨i, hqi⟩ := List.getElem?_of_mem hq
        obtain ⟨x, hx⟩ := align_pos hl hqi
        have hp : x.2 ∈ (Obj.map u w kvs).parts := map_snd_parts (List.mem_of_getElem? hx) u w
        exact ih vt x.2 q.2 (.left _ _ (Obj.parts_size hp)) (hok.parts hp) (ho.parts hp)
          (hi i x q hx hqi).2
    | box t o y h => exact ih t o y (.right _ (by simp)) hok ho h
    | struct n => exact absurd rfl (hne _)
    | tupleStruct n => exact absurd rfl (hne _)
    | enumS n => exact absurd rfl (hne _)
    | enumT n => exact absurd rfl (hne _)
    | enumU n => exact absurd rfl (hne _)
    | scalar s => exact .mk _ (.other _ (by simp [Obj.typeOf])) nofun
    | nonzero k n => exact .mk _ (.other _ (by simp [Obj.typeOf])) nofun
    | nonzeroInt k n _ => exact .mk _ (.other _ (by simp [Obj.typeOf])) nofun
    | _ => exact Value.toObj_honoured _
termination_by (sizeOf o, sizeOf t)
decreasing_by exact hlt

end Mirror
