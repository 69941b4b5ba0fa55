import Verif.Lemmas.Equal
import Verif.Lemmas.Views
import Verif.Lemmas.PatchFullValue

set_option linter.unusedSimpArgs false

/-!
# Skipped fields have no influence: all operations commute with resetting them
-/

namespace Mirror

/-! ## Accessors -/

theorem reset_asScalar (x : Obj) : x.reset.asScalar = x.asScalar := by
  cases x <;> simp [Obj.reset, Obj.asScalar]

theorem reset_variantKind (x : Obj) : x.reset.variantKind = x.variantKind := by
  cases x <;> simp [Obj.reset, Obj.variantKind]

theorem reset_isTy (x : Obj) (t : Ty) : x.reset.isTy t = x.isTy t := by
  unfold Obj.isTy; rw [reset_typeOf]

theorem reset_field (o : Obj) (n : String) : o.reset.field n = (o.field n).map Obj.reset := by
  cases o <;> simp only [Obj.reset, Obj.field, Option.map_none]
  case struct => exact lookup_visFields_reset _ _
  case enumS => exact lookup_visFields_reset _ _

theorem reset_fieldAt (o : Obj) (i : Nat) : o.reset.fieldAt i = (o.fieldAt i).map Obj.reset := by
  have hn : ∀ (ns : List String) (fs : List (String × Obj)),
      (ns[i]?.bind fun n => lookup n (fs.map fun p => (p.1, p.2.reset))) =
        (ns[i]?.bind fun n => lookup n fs).map Obj.reset := by
    intro ns fs
    cases ns[i]? with
    | none => rfl
    | some n => simp only [Option.bind_some, lookup_map]
  cases o
  case struct tag fs =>
    cases tag
    · simp only [Obj.reset, Obj.fieldAt, visFields_reset, List.getElem?_map]
      cases (visFields fs)[i]? <;> rfl
    · simp only [Obj.reset, Obj.fieldAt]; exact hn _ _
  case enumS tag v fs =>
    cases tag
    · simp only [Obj.reset, Obj.fieldAt, List.map_map]
      rw [← visAt_reset, List.map_map]; rfl
    · simp only [Obj.reset, Obj.fieldAt]; exact hn _ _
  case tupleStruct => simp only [Obj.reset, Obj.fieldAt]; exact visAt_reset _ _
  case tuple => simp only [Obj.reset, Obj.fieldAt]; exact visAt_reset _ _
  case enumT => simp only [Obj.reset, Obj.fieldAt]; exact visAt_reset _ _
  case vec => simp [Obj.reset, Obj.fieldAt]
  case array => simp [Obj.reset, Obj.fieldAt]
  all_goals simp [Obj.reset, Obj.fieldAt]

theorem reset_nameAt (o : Obj) (i : Nat) : o.reset.nameAt i = o.nameAt i := by
  cases o
  case struct tag fs =>
    cases tag
    · simp only [Obj.reset, Obj.nameAt, visFields_reset, List.getElem?_map]
      cases (visFields fs)[i]? <;> rfl
    · simp [Obj.reset, Obj.nameAt]
  case enumS tag v fs =>
    cases tag
    · simp only [Obj.reset, Obj.nameAt, List.getElem?_map]
      cases fs[i]? <;> simp
    · simp [Obj.reset, Obj.nameAt]
  case enumT tag v fs =>
    cases tag <;> simp only [Obj.reset, Obj.nameAt]
    rw [visAt_reset]
    cases visAt fs i <;> simp
  all_goals simp [Obj.reset, Obj.nameAt]

theorem takeWhile_reset (fs : List Obj) :
    (fs.map Obj.reset).takeWhile (fun x => !x.isHidden) = (fs.takeWhile fun x => !x.isHidden).map Obj.reset := by
  induction fs with
  | nil => rfl
  | cons a r ih =>
    simp only [List.map_cons, List.takeWhile_cons, isHidden_reset]
    cases a.isHidden <;> simp [ih]

theorem takeWhile_named_reset (fs : List (String × Obj)) :
    (fs.map fun p => (p.1, p.2.reset)).takeWhile (fun p => !p.2.isHidden) =
      (fs.takeWhile fun p => !p.2.isHidden).map fun p => (p.1, p.2.reset) := by
  induction fs with
  | nil => rfl
  | cons a r ih =>
    simp only [List.map_cons, List.takeWhile_cons, isHidden_reset]
    cases a.2.isHidden <;> simp [ih]

theorem dynIter_reset (fs : List (String × Obj)) (ns : List String) :
    dynIter (fs.map fun p => (p.1, p.2.reset)) ns = (dynIter fs ns).map fun p => (p.1, p.2.reset) := by
  induction ns with
  | nil => rfl
  | cons n ns ih =>
    simp only [dynIter, lookup_map]
    cases lookup n fs <;> simp [ih]

theorem reset_namedIter (o : Obj) : o.reset.namedIter = o.namedIter.map fun p => (p.1, p.2.reset) := by
  cases o
  case struct tag fs =>
    cases tag
    · simp only [Obj.reset, Obj.namedIter, visFields_reset]
    · simp only [Obj.reset, Obj.namedIter]; exact dynIter_reset _ _
  case enumS tag v fs =>
    cases tag
    · simp only [Obj.reset, Obj.namedIter]; exact takeWhile_named_reset _
    · simp only [Obj.reset, Obj.namedIter]; exact dynIter_reset _ _
  all_goals simp [Obj.reset, Obj.namedIter]

theorem reset_posIter (o : Obj) : o.reset.posIter = o.posIter.map Obj.reset := by
  cases o
  case tupleStruct => simp only [Obj.reset, Obj.posIter]; exact takeWhile_reset _
  case tuple => simp only [Obj.reset, Obj.posIter]; exact takeWhile_reset _
  case enumT => simp only [Obj.reset, Obj.posIter]; exact takeWhile_reset _
  all_goals simp [Obj.reset, Obj.posIter]

theorem reset_fieldsLen (o : Obj) : o.reset.fieldsLen = o.fieldsLen := by
  have hf : ∀ fs : List Obj, ((fs.map fun x => x.reset).filter fun x => !x.isHidden).length =
      (fs.filter fun x => !x.isHidden).length := fun fs => by
    have := visPos_reset fs
    unfold visPos at this
    rw [this, List.length_map]
  cases o
  case struct tag fs => cases tag <;> simp [Obj.reset, Obj.fieldsLen, visFields_reset]
  case enumS tag v fs => cases tag <;> simp [Obj.reset, Obj.fieldsLen, visFields_reset]
  case tupleStruct => simp only [Obj.reset, Obj.fieldsLen]; exact hf _
  case tuple => simp only [Obj.reset, Obj.fieldsLen]; exact hf _
  case enumT => simp only [Obj.reset, Obj.fieldsLen]; exact hf _
  all_goals simp [Obj.reset, Obj.fieldsLen]

theorem reset_entries (o : Obj) : o.reset.entries = o.entries.map fun p => (p.1.reset, p.2.reset) := by
  cases o <;> simp [Obj.reset, Obj.entries]

theorem OK.reset {E : Env} (hO : OrdLaws E) (hK : KeysShown E) {o : Obj} (h : o.OK E) : o.reset.OK E :=
  h.elim fun _ ht => ⟨_, ht.reset hO hK⟩

/-! ## Maps -/

theorem kcmp_reset_left {E : Env} (hO : OrdLaws E) (hK : KeysShown E) {t : Ty} {a b : Obj}
    (ha : HasTy E t a) (hb : HasTy E t b) : E.kcmp t a.reset b = E.kcmp t a b := by
  have h1 : E.kcmp t a.reset a = .eq := hK t _ _ (ha.reset hO hK) ha (by rw [toValue_reset, Value.cmp_self])
  exact (hO.cmpOn t).eq_trans _ _ _ (ha.reset hO hK) ha hb h1

theorem kcmp_reset' {E : Env} (hO : OrdLaws E) (hK : KeysShown E) {t : Ty} {a b : Obj}
    (ha : HasTy E t a) (hb : HasTy E t b) : E.kcmp t a.reset b.reset = E.kcmp t a b :=
  kcmp_reset hO hK ha hb (ha.reset hO hK) (hb.reset hO hK)

/-- A pair with skipped fields reset in key and value. -/
def resetPair (p : Obj × Obj) : Obj × Obj := (p.1.reset, p.2.reset)

theorem bmInsert_reset {E : Env} (hO : OrdLaws E) (hK : KeysShown E) {t : Ty} {k v : Obj} (hk : HasTy E t k) :
    ∀ {l : List (Obj × Obj)}, (∀ p ∈ l, HasTy E t p.1) →
    bmInsert (E.kcmp t) k.reset v.reset (l.map resetPair) = (bmInsert (E.kcmp t) k v l).map resetPair
  | [], _ => rfl
  | (k', v') :: r, h => by
    have hk' := h (k', v') (by simp)
    simp only [List.map_cons, resetPair, bmInsert, kcmp_reset' hO hK hk hk']
    cases E.kcmp t k k' with
    | lt => rfl
    | eq => rfl
    | gt =>
      have := bmInsert_reset hO hK hk (v := v) (l := r) fun p hp => h p (by simp [hp])
      simp only [List.map_cons, resetPair] at this ⊢
      rw [this]

theorem bmInsert_typed {E : Env} {t : Ty} {k v : Obj} (hk : HasTy E t k) :
    ∀ {l : List (Obj × Obj)}, (∀ p ∈ l, HasTy E t p.1) →
    ∀ p ∈ bmInsert (E.kcmp t) k v l, HasTy E t p.1
  | [], _, p, hp => by simp [bmInsert] at hp; rw [hp]; exact hk
  | (k', v') :: r, h, p, hp => by
    have hk' := h (k', v') (by simp)
    simp only [bmInsert] at hp
    split at hp
    · rcases List.mem_cons.mp hp with rfl | hp
      · exact hk
      · exact h p hp
    · rcases List.mem_cons.mp hp with rfl | hp
      · exact hk'
      · exact h p (by simp [hp])
    · rcases List.mem_cons.mp hp with rfl | hp
      · exact hk'
      · exact bmInsert_typed hk (fun p hp => h p (by simp [hp])) p hp

theorem bmOfList_reset {E : Env} (hO : OrdLaws E) (hK : KeysShown E) {t : Ty} {l : List (Obj × Obj)}
    (h : ∀ p ∈ l, HasTy E t p.1) :
    bmOfList (E.kcmp t) (l.map resetPair) = (bmOfList (E.kcmp t) l).map resetPair := by
  have key : ∀ (l m : List (Obj × Obj)), (∀ p ∈ l, HasTy E t p.1) → (∀ p ∈ m, HasTy E t p.1) →
      (l.map resetPair).foldl (fun m p => bmInsert (E.kcmp t) p.1 p.2 m) (m.map resetPair) =
        (l.foldl (fun m p => bmInsert (E.kcmp t) p.1 p.2 m) m).map resetPair := by
    intro l
    induction l with
    | nil => intros; rfl
    | cons a r ih =>
      intro m hl hm
      have ha := hl a (by simp)
      simp only [List.map_cons, List.foldl_cons]
      rw [show (resetPair a).1 = a.1.reset from rfl, show (resetPair a).2 = a.2.reset from rfl,
        bmInsert_reset hO hK ha hm]
      exact ih _ (fun p hp => hl p (by simp [hp])) (bmInsert_typed ha hm)
  exact key l [] h (by simp)

theorem bmGet_reset {E : Env} (hO : OrdLaws E) (hK : KeysShown E) {t : Ty} {k : Obj} (hk : HasTy E t k) :
    ∀ {l : List (Obj × Obj)}, (∀ p ∈ l, HasTy E t p.1) →
    bmGet (E.kcmp t) k.reset (l.map resetPair) = (bmGet (E.kcmp t) k l).map Obj.reset
  | [], _ => rfl
  | (k', v') :: r, h => by
    have hk' := h (k', v') (by simp)
    simp only [List.map_cons, resetPair, bmGet, kcmp_reset' hO hK hk hk']
    split
    · rfl
    · exact bmGet_reset hO hK hk fun p hp => h p (by simp [hp])

/-! ## `from_reflect` -/

theorem optAll_map_comm {α β γ} {f : α → Option β} {f' : α → Option γ} {g : β → γ} {l : List α}
    (h : ∀ a ∈ l, f' a = (f a).map g) : optAll (l.map f') = (optAll (l.map f)).map (List.map g) := by
  induction l with
  | nil => rfl
  | cons a r ih =>
    simp only [List.map_cons, h a (by simp)]
    cases f a with
    | none => rfl
    | some b =>
      simp only [Option.map_some, optAll, ih fun a ha => h a (by simp [ha]), Option.map_map]
      cases optAll (r.map f) <;> rfl

theorem optAll_mapIdx_comm {α β γ} {f : Nat → α → Option β} {f' : Nat → α → Option γ} {g : β → γ} {l : List α}
    (h : ∀ (i : Nat) a, a ∈ l → f' i a = (f i a).map g) :
    optAll (l.mapIdx f') = (optAll (l.mapIdx f)).map (List.map g) := by
  induction l generalizing f f' with
  | nil => rfl
  | cons a r ih =>
    simp only [List.mapIdx_cons, h 0 a (by simp)]
    cases f 0 a with
    | none => rfl
    | some b =>
      simp only [Option.map_some, optAll, Option.map_map]
      rw [ih (f := fun i => f (i + 1)) (f' := fun i => f' (i + 1)) fun i a ha => h (i + 1) a (by simp [ha])]
      cases optAll (r.mapIdx fun i => f (i + 1)) <;> rfl

theorem fromReflect_reset_comm {E : Env} (hO : OrdLaws E) (hK : KeysShown E) (t : Ty) (o : Obj) (hv : o.OK E) :
    fromReflect E t o.reset = (fromReflect E t o).map Obj.reset := by
  have conv : ∀ {c : Bool} {t : Ty} {v : Obj}, v.OK E → sizeOf v < sizeOf o →
      convField E c t v.reset = (convField E c t v).map Obj.reset := by
    intro c t v hok hsz
    simp only [convField, reset_isTy]
    split
    · rfl
    · exact fromReflect_reset_comm hO hK t v hok
  have named : ∀ (c : Bool) (fds : List FieldDef),
      optAll (fds.map (convNamed E c o.reset)) =
        (optAll (fds.map (convNamed E c o))).map (List.map fun p => (p.1, p.2.reset)) := by
    intro c fds
    refine optAll_map_comm fun fd _ => ?_
    simp only [convNamed]
    split
    · simp [Obj.reset]
    · rw [reset_field]
      cases hf : o.field fd.name with
      | none => rfl
      | some v =>
        simp only [Option.map_some, Option.bind_some, conv (OK_field hv hf) (Obj.field_size hf), Option.map_map]
        rfl
  have pos : ∀ (c : Bool) (fds : List FieldDef),
      optAll (fds.mapIdx (convPos E c o.reset)) =
        (optAll (fds.mapIdx (convPos E c o))).map (List.map Obj.reset) := by
    intro c fds
    refine optAll_mapIdx_comm fun i fd _ => ?_
    simp only [convPos]
    split
    · simp [Obj.reset]
    · rw [reset_fieldAt]
      cases hf : o.fieldAt i with
      | none => rfl
      | some v =>
        simp only [Option.map_some, Option.bind_some, conv (OK_fieldAt hv hf) (Obj.fieldAt_size hf)]
  match t with
  | .scalar k =>
    simp only [fromReflect_scalar, reset_isTy]
    split <;> simp
  | .nonzero k =>
    rw [fromReflect_nonzero, fromReflect_nonzero, reset_isTy]
    split
    · rfl
    · cases o with
      | scalar s =>
        simp only [Obj.reset]
        cases s <;> simp only [Option.map_none]
        split <;> simp [Obj.reset]
      | _ => simp [Obj.reset]
  | .named n =>
    cases hd : E.decl n with
    | none => rw [fromReflect_nodecl hd, fromReflect_nodecl hd]; rfl
    | some d =>
      obtain ⟨sh, c⟩ := d
      cases sh with
      | struct fds =>
        rw [fromReflect_struct hd, fromReflect_struct hd, reset_kind, named]
        split
        · cases optAll (fds.map (convNamed E c o)) <;> simp [Obj.reset]
        · rfl
      | tupleStruct fds =>
        rw [fromReflect_tupleStruct hd, fromReflect_tupleStruct hd, reset_kind, pos]
        split
        · cases optAll (fds.mapIdx (convPos E c o)) <;> simp [Obj.reset]
        · rfl
      | enum vds =>
        rw [fromReflect_enum hd, fromReflect_enum hd, reset_variantName]
        cases o.variantName with
        | none => rfl
        | some vn =>
          simp only [Option.bind_some]
          cases vds.find? fun vd => decide (vd.name = vn) with
          | none => rfl
          | some vd =>
            simp only [Option.bind_some]
            cases vd with
            | struct vn fds =>
              dsimp only
              rw [named]; cases optAll (fds.map (convNamed E c o)) <;> simp [Obj.reset]
            | tuple vn fds =>
              dsimp only
              rw [pos]; cases optAll (fds.mapIdx (convPos E c o)) <;> simp [Obj.reset]
            | unit vn => simp [Obj.reset]
  | .tuple ts =>
    rw [fromReflect_tuple, fromReflect_tuple, reset_kind]
    split
    · rw [optAll_mapIdx_comm (f := fun i t => (o.fieldAt i).bind fun v => fromReflect E t v) (g := Obj.reset)]
      · cases optAll (ts.mapIdx fun i t => (o.fieldAt i).bind fun v => fromReflect E t v) <;> simp [Obj.reset]
      · intro i t _
        rw [reset_fieldAt]
        cases hf : o.fieldAt i with
        | none => rfl
        | some v =>
          have hsize := Obj.fieldAt_size hf
          exact fromReflect_reset_comm hO hK t v (OK_fieldAt hv hf)
    · rfl
  | .vec t =>
    cases o <;> simp only [Obj.reset] <;> (first | (simp [fromReflect]; done) | skip)
    rename_i u xs
    rw [fromReflect_vec, fromReflect_vec, List.map_map,
      optAll_map_comm (f := fun x => fromReflect E t x) (g := Obj.reset)]
    · cases optAll (xs.map fun x => fromReflect E t x) <;> simp [Obj.reset]
    · intro x hx
      have hsize := List.sizeOf_lt_of_mem hx
      exact fromReflect_reset_comm hO hK t x (hv.parts (vec_parts hx _))
  | .array t n =>
    cases o <;> simp only [Obj.reset] <;> (first | (simp [fromReflect]; done) | skip)
    rename_i u xs
    rw [fromReflect_array, fromReflect_array, List.map_map,
      optAll_map_comm (f := fun x => fromReflect E t x) (g := Obj.reset)]
    · cases optAll (xs.map fun x => fromReflect E t x) with
      | none => rfl
      | some ys =>
        simp only [Option.map_some, Option.bind_some, List.length_map]
        split <;> simp [Obj.reset]
    · intro x hx
      have hsize := List.sizeOf_lt_of_mem hx
      exact fromReflect_reset_comm hO hK t x (hv.parts (vec_parts hx _))
  | .map kt vt =>
    cases o <;> simp only [Obj.reset] <;> (first | (simp [fromReflect]; done) | skip)
    rename_i u w kvs
    rw [fromReflect_map, fromReflect_map, List.map_map,
      optAll_map_comm (f := fun p : Obj × Obj => (fromReflect E kt p.1).bind fun k =>
        (fromReflect E vt p.2).map fun v => (k, v)) (g := resetPair)]
    · cases hl : optAll (kvs.map fun p => (fromReflect E kt p.1).bind fun k =>
        (fromReflect E vt p.2).map fun v => (k, v)) with
      | none => rfl
      | some l =>
        simp only [Option.map_some, Obj.reset]
        rw [bmOfList_reset hO hK]
        · rfl
        · intro y hy
          obtain ⟨hlen, hi⟩ := optAll_map_inv hl
          obtain ⟨i, hyi⟩ := List.getElem?_of_mem hy
          obtain ⟨x, hx⟩ := align_pos hlen hyi
          have hm := List.mem_of_getElem? hx
          obtain ⟨k, hk, hh⟩ := Option.bind_eq_some_iff.mp (hi i x y hx hyi)
          obtain ⟨v, hv', rfl⟩ := Option.map_eq_some_iff.mp hh
          exact fromReflect_sound hO _ _ (hv.parts (map_fst_parts hm _ _)) hk
    · intro p hp
      have h1 := sizeOf_fst_lt_of_mem hp
      have h2 := sizeOf_snd_lt_of_mem hp
      simp only [Function.comp_apply]
      rw [fromReflect_reset_comm hO hK kt p.1 (hv.parts (map_fst_parts hp _ _)),
        fromReflect_reset_comm hO hK vt p.2 (hv.parts (map_snd_parts hp _ _))]
      cases fromReflect E kt p.1 with
      | none => rfl
      | some k =>
        simp only [Option.map_some, Option.bind_some]
        cases fromReflect E vt p.2 <;> rfl
  | .box t =>
    rw [fromReflect_box, fromReflect_box]
    exact fromReflect_reset_comm hO hK t o hv
  | .value => simp [fromReflect_value, toValue_reset, toObj_reset]
  | .structValue =>
    rw [fromReflect, fromReflect, reset_kind]
    split
    · simp only [reset_namedIter, dynStruct, List.map_map, Function.comp_def, toValue_reset, Option.map_some,
        toObj_reset]
    · rfl
  | .tupleStructValue =>
    rw [fromReflect, fromReflect, reset_kind]
    split
    · simp only [reset_posIter, List.map_map, Function.comp_def, toValue_reset, Option.map_some, toObj_reset]
    · rfl
  | .tupleValue =>
    rw [fromReflect, fromReflect, reset_kind]
    split
    · simp only [reset_posIter, List.map_map, Function.comp_def, toValue_reset, Option.map_some, toObj_reset]
    · rfl
  | .enumValue =>
    rw [fromReflect, fromReflect, reset_variantKind, reset_variantName]
    split <;> simp only [reset_namedIter, reset_posIter, dynStruct, List.map_map, Function.comp_def,
      toValue_reset, Option.map_some, toObj_reset, Option.map_none]
termination_by (sizeOf o, sizeOf t)
decreasing_by
  all_goals first
    | (apply Prod.Lex.left; first | assumption | (simp_all; omega) | omega)
    | (apply Prod.Lex.right; simp_all; try omega)

theorem mapGet_reset {E : Env} (hO : OrdLaws E) (hK : KeysShown E) {o k : Obj} (ho : o.OK E) (hk : k.OK E) :
    o.reset.mapGet E k.reset = (o.mapGet E k).map Obj.reset := by
  cases o <;> simp only [Obj.reset, Obj.mapGet, Option.map_none]
  rename_i kt vt kvs
  obtain ⟨_, h2, _⟩ := OK.map_inv hO ho
  rw [fromReflect_reset_comm hO hK kt k hk]
  cases hf : fromReflect E kt k with
  | none => rfl
  | some k' => exact bmGet_reset hO hK (fromReflect_sound hO _ _ hk hf) h2

/-! ## `reflect_eq` -/

theorem reflectEq_reset_iff {E : Env} (hO : OrdLaws E) (hK : KeysShown E) {x : Obj}
    (hx : x.OK E) : ∀ {y : Obj}, y.OK E →
    (reflectEq E x.reset y.reset = some true ↔ reflectEq E x y = some true) := by
  induction x using Obj.ind with
  | h x ih =>
    intro y hy
    have ih : ∀ {a b : Obj}, a ∈ x.parts → b ∈ y.parts →
        (reflectEq E a.reset b.reset = some true ↔ reflectEq E a b = some true) := fun {a b} ha hb =>
      ih a (Obj.parts_size ha) (hx.parts ha) (hy.parts hb)
    rw [reflectEq_iff, reflectEq_iff]
    constructor
    · intro h
      refine ⟨by simpa only [reset_kind] using h.kind, by simpa only [reset_kind] using h.shown,
        by simpa only [reset_variantName] using h.vname, by simpa only [reset_variantKind] using h.vkind,
        by simpa only [reset_fieldsLen] using h.len, by simpa only [reset_asScalar] using h.scalar, ?_, ?_, ?_⟩
      · intro p hp
        obtain ⟨b, hb, hr⟩ := h.named (p.1, p.2.reset) (by
          rw [reset_namedIter]; exact List.mem_map.mpr ⟨p, hp, rfl⟩)
        rw [reset_field] at hb
        obtain ⟨b', hb', rfl⟩ := Option.map_eq_some_iff.mp hb
        exact ⟨b', hb', (ih (Obj.namedIter_parts hx.dynVis hp) (Obj.field_parts hb')).mp hr⟩
      · intro i a b ha hb
        refine (ih (Obj.posIter_parts (List.mem_of_getElem? ha)) (Obj.posIter_parts (List.mem_of_getElem? hb))).mp
          (h.pos i _ _ ?_ ?_)
        · rw [reset_posIter, List.getElem?_map, ha]; rfl
        · rw [reset_posIter, List.getElem?_map, hb]; rfl
      · intro p hp
        obtain ⟨kt, vt, kvs, rfl⟩ := entries_isMap hp
        obtain ⟨b, hb, hr⟩ := h.entries (p.1.reset, p.2.reset) (by
          rw [reset_entries]; exact List.mem_map.mpr ⟨p, hp, rfl⟩)
        rw [mapGet_reset hO hK hy (hx.parts (map_fst_parts hp _ _))] at hb
        obtain ⟨b', hb', rfl⟩ := Option.map_eq_some_iff.mp hb
        exact ⟨b', hb', (ih (map_snd_parts hp _ _) (Obj.mapGet_parts hb')).mp hr⟩
    · intro h
      refine ⟨by simpa only [reset_kind] using h.kind, by simpa only [reset_kind] using h.shown,
        by simpa only [reset_variantName] using h.vname, by simpa only [reset_variantKind] using h.vkind,
        by simpa only [reset_fieldsLen] using h.len, by simpa only [reset_asScalar] using h.scalar, ?_, ?_, ?_⟩
      · intro p hp
        rw [reset_namedIter] at hp
        obtain ⟨q, hq, rfl⟩ := List.mem_map.mp hp
        obtain ⟨b, hb, hr⟩ := h.named q hq
        exact ⟨b.reset, by simp only [reset_field, hb, Option.map_some],
          (ih (Obj.namedIter_parts hx.dynVis hq) (Obj.field_parts hb)).mpr hr⟩
      · intro i a b ha hb
        rw [reset_posIter, List.getElem?_map] at ha hb
        obtain ⟨a', ha', rfl⟩ := Option.map_eq_some_iff.mp ha
        obtain ⟨b', hb', rfl⟩ := Option.map_eq_some_iff.mp hb
        exact (ih (Obj.posIter_parts (List.mem_of_getElem? ha')) (Obj.posIter_parts (List.mem_of_getElem? hb'))).mpr
          (h.pos i _ _ ha' hb')
      · intro p hp
        rw [reset_entries] at hp
        obtain ⟨q, hq, rfl⟩ := List.mem_map.mp hp
        obtain ⟨kt, vt, kvs, rfl⟩ := entries_isMap hq
        obtain ⟨b, hb, hr⟩ := h.entries q hq
        exact ⟨b.reset, by
          simp only [mapGet_reset hO hK hy (hx.parts (map_fst_parts hq _ _)), hb, Option.map_some],
          (ih (map_snd_parts hq _ _) (Obj.mapGet_parts hb)).mpr hr⟩

theorem reflectEq_reset {E : Env} (hO : OrdLaws E) (hK : KeysShown E) {x y : Obj}
    (hx : x.OK E) (hy : y.OK E) : reflectEq E x.reset y.reset = reflectEq E x y :=
  opt_bool_eq (reflectEq_total (OK.reset hO hK hx) (OK.reset hO hK hy)) (reflectEq_total hx hy)
    (reflectEq_reset_iff hO hK hx hy)

/-! ## `patch` -/

theorem bmModify_reset {E : Env} (hO : OrdLaws E) (hK : KeysShown E) {t : Ty} {k : Obj} (hk : HasTy E t k)
    {f g : Obj → Obj} : ∀ {l : List (Obj × Obj)}, (∀ p ∈ l, HasTy E t p.1) →
    (∀ p ∈ l, g p.2.reset = (f p.2).reset) →
    bmModify (E.kcmp t) k.reset g (l.map resetPair) = (bmModify (E.kcmp t) k f l).map resetPair
  | [], _, _ => rfl
  | (k', v') :: r, h, hf => by
    have hk' := h (k', v') (by simp)
    simp only [List.map_cons, resetPair, bmModify, kcmp_reset' hO hK hk hk']
    split
    · simp only [List.map_cons, resetPair, hf (k', v') (by simp)]
    · have := bmModify_reset hO hK hk (l := r) (fun p hp => h p (by simp [hp])) fun p hp => hf p (by simp [hp])
      simp only [List.map_cons, resetPair] at this ⊢
      rw [this]

theorem patch_OK {E : Env} (hO : OrdLaws E) {x v : Obj} (hv : v.OK E) (hx : x.OK E) : (patch E x v).OK E :=
  hx.elim fun _ h => ⟨_, patch_hasTy hO v hv h⟩

theorem bmModify_vals {E : Env} {cmp : Obj → Obj → Ordering} {k : Obj} {f : Obj → Obj} {P : Obj → Prop}
    (hf : ∀ x, P x → P (f x)) : ∀ {l : List (Obj × Obj)}, (∀ p ∈ l, P p.2) →
    ∀ p ∈ bmModify cmp k f l, P p.2
  | [], _, p, hp => by simp [bmModify] at hp
  | (k', v') :: r, h, p, hp => by
    simp only [bmModify] at hp
    split at hp
    · rcases List.mem_cons.mp hp with rfl | hp
      · exact hf _ (h (k', v') (by simp))
      · exact h p (by simp [hp])
    · rcases List.mem_cons.mp hp with rfl | hp
      · exact h (k', v') (by simp)
      · exact bmModify_vals (E := E) hf (fun p hp => h p (by simp [hp])) p hp

theorem patch_reset {E : Env} (hO : OrdLaws E) (hK : KeysShown E) {v : Obj} (hv : v.OK E) :
    ∀ {x : Obj}, x.OK E → patch E x.reset v.reset = (patch E x v).reset := by
  induction v using Obj.ind with
  | h v ihv =>
    intro x hx
    have fld : ∀ {y : Obj} {w : Option Obj}, (y.isHidden = true ∨ y ∈ x.parts) →
        (∀ w', w = some w' → w'.OK E ∧ sizeOf w' < sizeOf v) →
        patchO E y.reset (w.map Obj.reset) = (patchO E y w).reset := by
      intro y w hy hw
      rcases hy with hy | hy
      · rw [patchO_of_hidden E (by rw [isHidden_reset]; exact hy), patchO_of_hidden E hy]
      · cases w with
        | none => rfl
        | some w' => exact ihv w' (hw w' rfl).2 (hw w' rfl).1 (hx.parts hy)
    have named : ∀ fs : List (String × Obj), (∀ p ∈ fs, p.2.isHidden = true ∨ p.2 ∈ x.parts) →
        patchNamed E v.reset (fs.map fun p => (p.1, p.2.reset)) =
          (patchNamed E v fs).map fun p => (p.1, p.2.reset) := by
      intro fs h
      simp only [patchNamed, List.map_map]
      refine List.map_congr_left fun p hp => ?_
      simp only [Function.comp_apply, reset_field]
      rw [fld (h p hp) fun w hw => ⟨OK_field hv hw, Obj.field_size hw⟩]
    have pos : ∀ fs : List Obj, (∀ y ∈ fs, y.isHidden = true ∨ y ∈ x.parts) →
        patchPos E v.reset (fs.map Obj.reset) = (patchPos E v fs).map Obj.reset := by
      intro fs h
      simp only [patchPos]
      apply List.ext_getElem?
      intro i
      simp only [List.getElem?_mapIdx, List.getElem?_map]
      cases hi : fs[i]? with
      | none => rfl
      | some y =>
        simp only [Option.map_some, reset_fieldAt]
        rw [fld (h y (List.mem_of_getElem? hi)) fun w hw => ⟨OK_fieldAt hv hw, Obj.fieldAt_size hw⟩]
    have hn : ∀ {fs : List (String × Obj)}, (visFields fs).map (·.2) ⊆ x.parts →
        ∀ p ∈ fs, p.2.isHidden = true ∨ p.2 ∈ x.parts := by
      intro fs h p hp
      cases hh : p.2.isHidden with
      | true => exact .inl rfl
      | false => exact .inr (h (List.mem_map.mpr ⟨p, by simp [visFields, hp, hh], rfl⟩))
    have hpos : ∀ {fs : List Obj}, visPos fs ⊆ x.parts →
        ∀ y ∈ fs, y.isHidden = true ∨ y ∈ x.parts := by
      intro fs h p hp
      cases hh : p.isHidden with
      | true => exact .inl rfl
      | false => exact .inr (h (by simp [visPos, hp, hh]))
    have fields : x.kind = .enum → patchFields E v.reset x.reset = (patchFields E v x).reset := by
      intro hk
      cases x <;> simp only [Obj.kind, reduceCtorEq] at hk
      case enumS tag vn fs =>
        simp only [Obj.reset, patchFields, named fs (hn fun a ha => by simpa [Obj.parts] using ha)]
      case enumT tag vn fs =>
        simp only [Obj.reset, patchFields, pos fs (hpos fun a ha => by simpa [Obj.parts] using ha)]
      case enumU => simp only [Obj.reset, patchFields]
    by_cases hk : x.kind = .enum
    · have ht : (∃ n, x.typeOf = some (.named n)) ∨ x.typeOf = some .enumValue := by
        rcases enum_type hO hk hx with h | ⟨n, _, _, h, _⟩
        · exact .inr h
        · exact .inl ⟨n, h⟩
      rcases ht with ⟨n, ht⟩ | ht
      · rw [patch_enum_derived E hk ht, patch_enum_derived E (by rw [reset_kind]; exact hk)
          (by rw [reset_typeOf]; exact ht), reset_isTy, reset_kind, fromReflect_reset_comm hO hK _ _ hv,
          reset_variantName, reset_variantName, fields hk]
        split
        · rfl
        · split
          · cases fromReflect E (.named n) v with
            | none => dsimp only [Option.map_none]; split <;> rfl
            | some y => rfl
          · rfl
      · rw [patch_enum_dyn E hk ht, patch_enum_dyn E (by rw [reset_kind]; exact hk)
          (by rw [reset_typeOf]; exact ht), reset_kind, fromReflect_reset_comm hO hK _ _ hv,
          reset_variantName, reset_variantName, fields hk]
        split
        · split
          · rfl
          · cases fromReflect E .enumValue v <;> rfl
        · rfl
    · cases x <;> simp only [Obj.kind, reduceCtorEq, not_true_eq_false] at hk
      all_goals first
        | (case scalar s =>
            simp only [Obj.reset, patch_scalar, reset_isTy]
            split <;> simp [Obj.reset])
        | (case nonzero k n =>
            simp only [Obj.reset, patch_nonzero, fromReflect_reset_comm hO hK _ _ hv]
            cases fromReflect E (.nonzero k) v <;> simp [Obj.reset])
        | (case struct tag fs =>
            simp only [Obj.reset, patch_struct, reset_kind]
            split
            · simp only [Obj.reset, named fs (hn fun a ha => by simpa [Obj.parts] using ha)]
            · simp only [Obj.reset])
        | (case tupleStruct tag fs =>
            simp only [Obj.reset, patch_tupleStruct, reset_kind]
            split
            · simp only [Obj.reset, pos fs (hpos fun a ha => by simpa [Obj.parts] using ha)]
            · simp only [Obj.reset])
        | (case tuple tag fs =>
            simp only [Obj.reset, patch_tuple, reset_kind]
            split
            · simp only [Obj.reset, pos fs (hpos fun a ha => by simpa [Obj.parts] using ha)]
            · simp only [Obj.reset])
        | (case vec t xs =>
            simp only [Obj.reset, patch_vec, reset_kind]
            split
            · simp only [Obj.reset, pos xs fun a ha => .inr (by simpa [Obj.parts] using ha)]
            · simp only [Obj.reset])
        | (case array t xs =>
            simp only [Obj.reset, patch_array, reset_kind]
            split
            · simp only [Obj.reset, pos xs fun a ha => .inr (by simpa [Obj.parts] using ha)]
            · simp only [Obj.reset])
        | (case hidden d => simp only [Obj.reset, patch_hidden])
        | skip
      case map kt vt kvs =>
        by_cases hvk : v.kind = .map
        · cases v <;> simp only [Obj.kind, reduceCtorEq] at hvk
          rename_i u w new
          obtain ⟨_, h2, h3⟩ := OK.map_inv hO hx
          simp only [Obj.reset, patch_map]
          have key : ∀ (l m : List (Obj × Obj)), (∀ p ∈ l, p ∈ new) → (∀ p ∈ m, HasTy E kt p.1) →
              (∀ p ∈ m, p.2.OK E) → (l.map resetPair).foldl (patchEntry E kt) (m.map resetPair) =
                (l.foldl (patchEntry E kt) m).map resetPair := by
            intro l
            induction l with
            | nil => intros; rfl
            | cons a r ih =>
              intro m hl hm hm2
              have ha := hl a (by simp)
              have ok1 := hv.parts (map_fst_parts ha u w)
              have ok2 := hv.parts (map_snd_parts ha u w)
              have hs := Obj.parts_size (map_snd_parts ha u w)
              simp only [List.map_cons, List.foldl_cons]
              have e : patchEntry E kt (m.map resetPair) (resetPair a) = (patchEntry E kt m a).map resetPair := by
                simp only [patchEntry, resetPair]
                rw [fromReflect_reset_comm hO hK kt a.1 ok1]
                cases hf : fromReflect E kt a.1 with
                | none => rfl
                | some k =>
                  exact bmModify_reset hO hK (fromReflect_sound hO _ _ ok1 hf) hm fun p hp =>
                    ihv a.2 hs ok2 (hm2 p hp)
              rw [e]
              refine ih _ (fun p hp => hl p (by simp [hp])) ?_ ?_
              · intro p hp
                simp only [patchEntry] at hp
                split at hp
                · exact hm p hp
                · have := List.mem_map_of_mem (f := (·.1)) hp
                  rw [bmModify_keys] at this
                  obtain ⟨q, hq, he⟩ := List.mem_map.mp this
                  exact he ▸ hm q hq
              · intro p hp
                simp only [patchEntry] at hp
                split at hp
                · exact hm2 p hp
                · exact bmModify_vals (E := E) (P := fun x => x.OK E) (fun x h => patch_OK hO ok2 h) hm2 p hp
          have := key new kvs (fun p hp => hp) h2 fun p hp => ⟨_, h3 p hp⟩
          simp only [show (fun p : Obj × Obj => (p.1.reset, p.2.reset)) = resetPair from rfl]
          rw [this]
        · rw [patch_map_other E kt vt kvs hvk]
          simp only [Obj.reset]
          rw [patch_map_other E kt vt _ (by rw [reset_kind]; exact hvk)]

theorem cloneReflect_reset {E : Env} (hO : OrdLaws E) (hK : KeysShown E) {x : Obj} (hx : x.OK E) :
    (cloneReflect E x.reset).map Obj.reset = (cloneReflect E x).map Obj.reset := by
  simp only [cloneReflect, reset_typeOf, toValue_reset]
  split <;> (try split) <;> simp [reset_reset]

end Mirror
