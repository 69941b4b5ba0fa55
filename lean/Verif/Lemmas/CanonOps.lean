import Verif.Lemmas.Canon
import Verif.Lemmas.UnseenMore

/-!
# All operations commute with choosing representatives of `==`
-/

set_option linter.unusedSimpArgs false

namespace Mirror

theorem canon_kind (x : Obj) : x.canon.kind = x.kind := by
  cases x <;> simp [Obj.canon, Obj.kind]

theorem canon_variantName (x : Obj) : x.canon.variantName = x.variantName := by
  cases x <;> simp [Obj.canon, Obj.variantName]

theorem canon_typeOf (x : Obj) : x.canon.typeOf = x.typeOf := by
  cases x with
  | struct tag fs => cases tag <;> simp [Obj.canon, Obj.typeOf]
  | tupleStruct tag fs => cases tag <;> simp [Obj.canon, Obj.typeOf]
  | tuple tag fs => cases tag <;> simp [Obj.canon, Obj.typeOf]
  | enumS tag _ fs => cases tag <;> simp [Obj.canon, Obj.typeOf]
  | enumT tag _ fs => cases tag <;> simp [Obj.canon, Obj.typeOf]
  | enumU tag _ => cases tag <;> simp [Obj.canon, Obj.typeOf]
  | _ => simp [Obj.canon, Obj.typeOf]

/-- A pair of keys compares the same as their representatives. -/
theorem kcmp_canon {E : Env} (hO : OrdLaws E) (hK : KeysShown E) {t : Ty} {a b : Obj}
    (ha : HasTy E t a) (hb : HasTy E t b) (ha' : HasTy E t a.canon) (hb' : HasTy E t b.canon) :
    E.kcmp t a.canon b.canon = E.kcmp t a b := by
  have h1 : E.kcmp t a.canon a = .eq := hK t _ _ ha' ha (by rw [toValue_canon, Value.cmp_canon_self])
  have h2 : E.kcmp t b.canon b = .eq := hK t _ _ hb' hb (by rw [toValue_canon, Value.cmp_canon_self])
  rw [(hO.cmpOn t).eq_trans _ _ _ ha' ha hb' h1, (hO.cmpOn t).eq_trans_right hb' hb ha h2]

theorem canon_sorted {E : Env} (hO : OrdLaws E) (hK : KeysShown E) {kt : Ty}
    {kvs : List (Obj × Obj)} (hs : BMSorted (E.kcmp kt) kvs) (hk : ∀ p ∈ kvs, HasTy E kt p.1)
    (hk' : ∀ p ∈ kvs, HasTy E kt p.1.canon) :
    BMSorted (E.kcmp kt) (kvs.map fun p => (p.1.canon, p.2.canon)) := by
  simp only [BMSorted, List.pairwise_map]
  refine List.Pairwise.imp_of_mem ?_ hs
  intro p q hp hq h
  rw [kcmp_canon hO hK (hk p hp) (hk q hq) (hk' p hp) (hk' q hq)]; exact h

theorem HasTy.canon {E : Env} (hO : OrdLaws E) (hK : KeysShown E) {t : Ty} {o : Obj}
    (h : HasTy E t o) : HasTy E t o.canon := by
  induction h with
  | scalar s => rw [Obj.canon, ← s.canon_kind]; exact .scalar _
  | nonzero k n h => rw [Obj.canon]; exact .nonzero k n h
  | struct n fds c fs hd h2 h3 _ ih =>
    rw [Obj.canon]
    refine .struct n fds c _ hd (by rw [List.map_map]; exact h2) ?_ ?_
    · intro i fd p hfd hp hs
      obtain ⟨q, hq, rfl⟩ := getElem?_map_some hp
      simpa using h3 i fd q hfd hq hs
    · intro i fd p hfd hp hs
      obtain ⟨q, hq, rfl⟩ := getElem?_map_some hp
      exact ih i fd q hfd hq hs
  | enumS n vds c vn fds fs hd hv h2 h3 _ ih =>
    rw [Obj.canon]
    refine .enumS n vds c vn fds _ hd hv (by rw [List.map_map]; exact h2) ?_ ?_
    · intro i fd p hfd hp hs
      obtain ⟨q, hq, rfl⟩ := getElem?_map_some hp
      simpa using h3 i fd q hfd hq hs
    · intro i fd p hfd hp hs
      obtain ⟨q, hq, rfl⟩ := getElem?_map_some hp
      exact ih i fd q hfd hq hs
  | tupleStruct n fds c fs hd h2 h3 _ ih =>
    rw [Obj.canon]
    refine .tupleStruct n fds c _ hd (by rw [List.length_map]; exact h2) ?_ ?_
    · intro i fd p hfd hp hs
      obtain ⟨q, hq, rfl⟩ := getElem?_map_some hp
      simpa using h3 i fd q hfd hq hs
    · intro i fd p hfd hp hs
      obtain ⟨q, hq, rfl⟩ := getElem?_map_some hp
      exact ih i fd q hfd hq hs
  | enumT n vds c vn fds fs hd hv h2 h3 _ ih =>
    rw [Obj.canon]
    refine .enumT n vds c vn fds _ hd hv (by rw [List.length_map]; exact h2) ?_ ?_
    · intro i fd p hfd hp hs
      obtain ⟨q, hq, rfl⟩ := getElem?_map_some hp
      simpa using h3 i fd q hfd hq hs
    · intro i fd p hfd hp hs
      obtain ⟨q, hq, rfl⟩ := getElem?_map_some hp
      exact ih i fd q hfd hq hs
  | enumU n vds c vn hd hv => rw [Obj.canon]; exact .enumU n vds c vn hd hv
  | tuple ts fs hl _ ih =>
    rw [Obj.canon]
    refine .tuple ts _ (by rw [List.length_map]; exact hl) ?_
    intro i t p ht hp
    obtain ⟨q, hq, rfl⟩ := getElem?_map_some hp
    exact ih i t q ht hq
  | vec t xs _ ih =>
    rw [Obj.canon]
    refine .vec t _ ?_
    intro x hx
    obtain ⟨q, hq, rfl⟩ := List.mem_map.mp hx
    exact ih q hq
  | array t xs _ ih =>
    rw [Obj.canon]
    have := HasTy.array (E := E) t (xs.map fun x => x.canon) (by
      intro x hx
      obtain ⟨q, hq, rfl⟩ := List.mem_map.mp hx
      exact ih q hq)
    rwa [List.length_map] at this
  | map kt vt kvs hs hk _ ihk ihv =>
    rw [Obj.canon]
    refine .map _ _ _ (canon_sorted hO hK hs hk ihk) ?_ ?_
    · intro x hx
      obtain ⟨q, hq, rfl⟩ := List.mem_map.mp hx
      exact ihk q hq
    · intro x hx
      obtain ⟨q, hq, rfl⟩ := List.mem_map.mp hx
      exact ihv q hq
  | box t o _ ih => exact .box t _ ih
  | value v o h ho => subst ho; rw [← toObj_canon]; exact .value _ _ h.canon rfl
  | structValue ns fs o h ho => subst ho; rw [← toObj_canon]; exact .structValue _ _ _ (by simpa only [Value.canon] using h.canon) (by rw [Value.canon])
  | tupleStructValue fs o h ho => subst ho; rw [← toObj_canon]; exact .tupleStructValue _ _ (by simpa only [Value.canon] using h.canon) (by rw [Value.canon])
  | tupleValue fs o h ho => subst ho; rw [← toObj_canon]; exact .tupleValue _ _ (by simpa only [Value.canon] using h.canon) (by rw [Value.canon])
  | enumValueS v ns fs o h ho => subst ho; rw [← toObj_canon]; exact .enumValueS _ _ _ _ (by simpa only [Value.canon] using h.canon) (by rw [Value.canon])
  | enumValueT v fs o h ho => subst ho; rw [← toObj_canon]; exact .enumValueT _ _ _ (by simpa only [Value.canon] using h.canon) (by rw [Value.canon])
  | enumValueU v o ho => subst ho; rw [← toObj_canon]; exact .enumValueU _ _ (by rw [Value.canon])

/-! ## Accessors -/

theorem canon_asScalar (x : Obj) : x.canon.asScalar = x.asScalar.map Scalar.canon := by
  cases x <;> simp [Obj.canon, Obj.asScalar, Scalar.canon]

theorem canon_variantKind (x : Obj) : x.canon.variantKind = x.variantKind := by
  cases x <;> simp [Obj.canon, Obj.variantKind]

theorem canon_isTy (x : Obj) (t : Ty) : x.canon.isTy t = x.isTy t := by
  unfold Obj.isTy; rw [canon_typeOf]

theorem canon_field (o : Obj) (n : String) : o.canon.field n = (o.field n).map Obj.canon := by
  cases o <;> simp only [Obj.canon, Obj.field, Option.map_none]
  case struct => exact lookup_visFields_canon _ _
  case enumS => exact lookup_visFields_canon _ _

theorem canon_fieldAt (o : Obj) (i : Nat) : o.canon.fieldAt i = (o.fieldAt i).map Obj.canon := by
  have hn : ∀ (ns : List String) (fs : List (String × Obj)),
      (ns[i]?.bind fun n => lookup n (fs.map fun p => (p.1, p.2.canon))) =
        (ns[i]?.bind fun n => lookup n fs).map Obj.canon := by
    intro ns fs
    cases ns[i]? with
    | none => rfl
    | some n => simp only [Option.bind_some, lookup_map]
  cases o
  case struct tag fs =>
    cases tag
    · simp only [Obj.canon, Obj.fieldAt, visFields_canon, List.getElem?_map]
      cases (visFields fs)[i]? <;> rfl
    · simp only [Obj.canon, Obj.fieldAt]; exact hn _ _
  case enumS tag v fs =>
    cases tag
    · simp only [Obj.canon, Obj.fieldAt, List.map_map]
      rw [← visAt_canon, List.map_map]; rfl
    · simp only [Obj.canon, Obj.fieldAt]; exact hn _ _
  case tupleStruct => simp only [Obj.canon, Obj.fieldAt]; exact visAt_canon _ _
  case tuple => simp only [Obj.canon, Obj.fieldAt]; exact visAt_canon _ _
  case enumT => simp only [Obj.canon, Obj.fieldAt]; exact visAt_canon _ _
  case vec => simp [Obj.canon, Obj.fieldAt]
  case array => simp [Obj.canon, Obj.fieldAt]
  all_goals simp [Obj.canon, Obj.fieldAt]

theorem canon_nameAt (o : Obj) (i : Nat) : o.canon.nameAt i = o.nameAt i := by
  cases o
  case struct tag fs =>
    cases tag
    · simp only [Obj.canon, Obj.nameAt, visFields_canon, List.getElem?_map]
      cases (visFields fs)[i]? <;> rfl
    · simp [Obj.canon, Obj.nameAt]
  case enumS tag v fs =>
    cases tag
    · simp only [Obj.canon, Obj.nameAt, List.getElem?_map]
      cases fs[i]? <;> simp
    · simp [Obj.canon, Obj.nameAt]
  case enumT tag v fs =>
    cases tag <;> simp only [Obj.canon, Obj.nameAt]
    rw [visAt_canon]
    cases visAt fs i <;> simp
  all_goals simp [Obj.canon, Obj.nameAt]

theorem takeWhile_canon (fs : List Obj) :
    (fs.map Obj.canon).takeWhile (fun x => !x.isHidden) = (fs.takeWhile fun x => !x.isHidden).map Obj.canon := by
  induction fs with
  | nil => rfl
  | cons a r ih =>
    simp only [List.map_cons, List.takeWhile_cons, isHidden_canon]
    cases a.isHidden <;> simp [ih]

theorem takeWhile_named_canon (fs : List (String × Obj)) :
    (fs.map fun p => (p.1, p.2.canon)).takeWhile (fun p => !p.2.isHidden) =
      (fs.takeWhile fun p => !p.2.isHidden).map fun p => (p.1, p.2.canon) := by
  induction fs with
  | nil => rfl
  | cons a r ih =>
    simp only [List.map_cons, List.takeWhile_cons, isHidden_canon]
    cases a.2.isHidden <;> simp [ih]

theorem dynIter_canon (fs : List (String × Obj)) (ns : List String) :
    dynIter (fs.map fun p => (p.1, p.2.canon)) ns = (dynIter fs ns).map fun p => (p.1, p.2.canon) := by
  induction ns with
  | nil => rfl
  | cons n ns ih =>
    simp only [dynIter, lookup_map]
    cases lookup n fs <;> simp [ih]

theorem canon_namedIter (o : Obj) : o.canon.namedIter = o.namedIter.map fun p => (p.1, p.2.canon) := by
  cases o
  case struct tag fs =>
    cases tag
    · simp only [Obj.canon, Obj.namedIter, visFields_canon]
    · simp only [Obj.canon, Obj.namedIter]; exact dynIter_canon _ _
  case enumS tag v fs =>
    cases tag
    · simp only [Obj.canon, Obj.namedIter]; exact takeWhile_named_canon _
    · simp only [Obj.canon, Obj.namedIter]; exact dynIter_canon _ _
  all_goals simp [Obj.canon, Obj.namedIter]

theorem canon_posIter (o : Obj) : o.canon.posIter = o.posIter.map Obj.canon := by
  cases o
  case tupleStruct => simp only [Obj.canon, Obj.posIter]; exact takeWhile_canon _
  case tuple => simp only [Obj.canon, Obj.posIter]; exact takeWhile_canon _
  case enumT => simp only [Obj.canon, Obj.posIter]; exact takeWhile_canon _
  all_goals simp [Obj.canon, Obj.posIter]

theorem canon_fieldsLen (o : Obj) : o.canon.fieldsLen = o.fieldsLen := by
  have hf : ∀ fs : List Obj, ((fs.map fun x => x.canon).filter fun x => !x.isHidden).length =
      (fs.filter fun x => !x.isHidden).length := fun fs => by
    have := visPos_canon fs
    unfold visPos at this
    rw [this, List.length_map]
  cases o
  case struct tag fs => cases tag <;> simp [Obj.canon, Obj.fieldsLen, visFields_canon]
  case enumS tag v fs => cases tag <;> simp [Obj.canon, Obj.fieldsLen, visFields_canon]
  case tupleStruct => simp only [Obj.canon, Obj.fieldsLen]; exact hf _
  case tuple => simp only [Obj.canon, Obj.fieldsLen]; exact hf _
  case enumT => simp only [Obj.canon, Obj.fieldsLen]; exact hf _
  all_goals simp [Obj.canon, Obj.fieldsLen]

theorem canon_entries (o : Obj) : o.canon.entries = o.entries.map fun p => (p.1.canon, p.2.canon) := by
  cases o <;> simp [Obj.canon, Obj.entries]

theorem OK.canon {E : Env} (hO : OrdLaws E) (hK : KeysShown E) {o : Obj} (h : o.OK E) : o.canon.OK E :=
  h.elim fun _ ht => ⟨_, ht.canon hO hK⟩

/-! ## Maps -/

theorem kcmp_canon_left {E : Env} (hO : OrdLaws E) (hK : KeysShown E) {t : Ty} {a b : Obj}
    (ha : HasTy E t a) (hb : HasTy E t b) : E.kcmp t a.canon b = E.kcmp t a b := by
  have h1 : E.kcmp t a.canon a = .eq := hK t _ _ (ha.canon hO hK) ha (by rw [toValue_canon, Value.cmp_canon_self])
  exact (hO.cmpOn t).eq_trans _ _ _ (ha.canon hO hK) ha hb h1

theorem kcmp_canon' {E : Env} (hO : OrdLaws E) (hK : KeysShown E) {t : Ty} {a b : Obj}
    (ha : HasTy E t a) (hb : HasTy E t b) : E.kcmp t a.canon b.canon = E.kcmp t a b :=
  kcmp_canon hO hK ha hb (ha.canon hO hK) (hb.canon hO hK)

/-- A pair with everything replaced by its representative in key and value. -/
def canonPair (p : Obj × Obj) : Obj × Obj := (p.1.canon, p.2.canon)

theorem bmInsert_canon {E : Env} (hO : OrdLaws E) (hK : KeysShown E) {t : Ty} {k v : Obj} (hk : HasTy E t k) :
    ∀ {l : List (Obj × Obj)}, (∀ p ∈ l, HasTy E t p.1) →
    bmInsert (E.kcmp t) k.canon v.canon (l.map canonPair) = (bmInsert (E.kcmp t) k v l).map canonPair
  | [], _ => rfl
  | (k', v') :: r, h => by
    have hk' := h (k', v') (by simp)
    simp only [List.map_cons, canonPair, bmInsert, kcmp_canon' hO hK hk hk']
    cases E.kcmp t k k' with
    | lt => rfl
    | eq => rfl
    | gt =>
      have := bmInsert_canon hO hK hk (v := v) (l := r) fun p hp => h p (by simp [hp])
      simp only [List.map_cons, canonPair] at this ⊢
      rw [this]

theorem bmOfList_canon {E : Env} (hO : OrdLaws E) (hK : KeysShown E) {t : Ty} {l : List (Obj × Obj)}
    (h : ∀ p ∈ l, HasTy E t p.1) :
    bmOfList (E.kcmp t) (l.map canonPair) = (bmOfList (E.kcmp t) l).map canonPair := by
  have key : ∀ (l m : List (Obj × Obj)), (∀ p ∈ l, HasTy E t p.1) → (∀ p ∈ m, HasTy E t p.1) →
      (l.map canonPair).foldl (fun m p => bmInsert (E.kcmp t) p.1 p.2 m) (m.map canonPair) =
        (l.foldl (fun m p => bmInsert (E.kcmp t) p.1 p.2 m) m).map canonPair := by
    intro l
    induction l with
    | nil => intros; rfl
    | cons a r ih =>
      intro m hl hm
      have ha := hl a (by simp)
      simp only [List.map_cons, List.foldl_cons]
      rw [show (canonPair a).1 = a.1.canon from rfl, show (canonPair a).2 = a.2.canon from rfl,
        bmInsert_canon hO hK ha hm]
      exact ih _ (fun p hp => hl p (by simp [hp])) (bmInsert_typed ha hm)
  exact key l [] h (by simp)

theorem bmGet_canon {E : Env} (hO : OrdLaws E) (hK : KeysShown E) {t : Ty} {k : Obj} (hk : HasTy E t k) :
    ∀ {l : List (Obj × Obj)}, (∀ p ∈ l, HasTy E t p.1) →
    bmGet (E.kcmp t) k.canon (l.map canonPair) = (bmGet (E.kcmp t) k l).map Obj.canon
  | [], _ => rfl
  | (k', v') :: r, h => by
    have hk' := h (k', v') (by simp)
    simp only [List.map_cons, canonPair, bmGet, kcmp_canon' hO hK hk hk']
    split
    · rfl
    · exact bmGet_canon hO hK hk fun p hp => h p (by simp [hp])

/-! ## `from_reflect` -/

theorem dynStruct_canon (l : List (String × Obj)) :
    dynStruct (l.map fun p => (p.1, p.2.canon)) =
      ((dynStruct l).1, (dynStruct l).2.map fun p => (p.1, p.2.canon)) := by
  simp only [dynStruct, svOfList_eq, List.map_map, Function.comp_def, toValue_canon, ← bmOfList_map]

theorem fromReflect_canon_comm {E : Env} (hO : OrdLaws E) (hK : KeysShown E) (t : Ty) (o : Obj) (hv : o.OK E) :
    fromReflect E t o.canon = (fromReflect E t o).map Obj.canon := by
  have conv : ∀ {c : Bool} {t : Ty} {v : Obj}, v.OK E → sizeOf v < sizeOf o →
      convField E c t v.canon = (convField E c t v).map Obj.canon := by
    intro c t v hok hsz
    simp only [convField, canon_isTy]
    split
    · rfl
    · exact fromReflect_canon_comm hO hK t v hok
  have named : ∀ (c : Bool) (fds : List FieldDef),
      optAll (fds.map (convNamed E c o.canon)) =
        (optAll (fds.map (convNamed E c o))).map (List.map fun p => (p.1, p.2.canon)) := by
    intro c fds
    refine optAll_map_comm fun fd _ => ?_
    simp only [convNamed]
    split
    · simp [Obj.canon]
    · rw [canon_field]
      cases hf : o.field fd.name with
      | none => rfl
      | some v =>
        simp only [Option.map_some, Option.bind_some, conv (OK_field hv hf) (Obj.field_size hf), Option.map_map]
        rfl
  have pos : ∀ (c : Bool) (fds : List FieldDef),
      optAll (fds.mapIdx (convPos E c o.canon)) =
        (optAll (fds.mapIdx (convPos E c o))).map (List.map Obj.canon) := by
    intro c fds
    refine optAll_mapIdx_comm fun i fd _ => ?_
    simp only [convPos]
    split
    · simp [Obj.canon]
    · rw [canon_fieldAt]
      cases hf : o.fieldAt i with
      | none => rfl
      | some v =>
        simp only [Option.map_some, Option.bind_some, conv (OK_fieldAt hv hf) (Obj.fieldAt_size hf)]
  match t with
  | .scalar k =>
    simp only [fromReflect_scalar, canon_isTy]
    split <;> simp
  | .nonzero k =>
    rw [fromReflect_nonzero, fromReflect_nonzero, canon_isTy]
    split
    · rfl
    · cases o with
      | scalar s =>
        cases s <;> simp only [Option.map_none, Obj.canon, Scalar.canon]
        split <;> simp [Obj.canon]
      | _ => simp [Obj.canon]
  | .named n =>
    cases hd : E.decl n with
    | none => rw [fromReflect_nodecl hd, fromReflect_nodecl hd]; rfl
    | some d =>
      obtain ⟨sh, c⟩ := d
      cases sh with
      | struct fds =>
        rw [fromReflect_struct hd, fromReflect_struct hd, canon_kind, named]
        split
        · cases optAll (fds.map (convNamed E c o)) <;> simp [Obj.canon]
        · rfl
      | tupleStruct fds =>
        rw [fromReflect_tupleStruct hd, fromReflect_tupleStruct hd, canon_kind, pos]
        split
        · cases optAll (fds.mapIdx (convPos E c o)) <;> simp [Obj.canon]
        · rfl
      | enum vds =>
        rw [fromReflect_enum hd, fromReflect_enum hd, canon_variantName]
        cases o.variantName with
        | none => rfl
        | some vn =>
          simp only [Option.bind_some]
          cases vds.find? fun vd => decide (vd.name = vn) with
          | none => rfl
          | some vd =>
            simp only [Option.bind_some]
            cases vd with
            | struct vn fds =>
              dsimp only
              rw [named]; cases optAll (fds.map (convNamed E c o)) <;> simp [Obj.canon]
            | tuple vn fds =>
              dsimp only
              rw [pos]; cases optAll (fds.mapIdx (convPos E c o)) <;> simp [Obj.canon]
            | unit vn => simp [Obj.canon]
  | .tuple ts =>
    rw [fromReflect_tuple, fromReflect_tuple, canon_kind]
    split
    · rw [optAll_mapIdx_comm (f := fun i t => (o.fieldAt i).bind fun v => fromReflect E t v) (g := Obj.canon)]
      · cases optAll (ts.mapIdx fun i t => (o.fieldAt i).bind fun v => fromReflect E t v) <;> simp [Obj.canon]
      · intro i t _
        rw [canon_fieldAt]
        cases hf : o.fieldAt i with
        | none => rfl
        | some v =>
          have hsize := Obj.fieldAt_size hf
          exact fromReflect_canon_comm hO hK t v (OK_fieldAt hv hf)
    · rfl
  | .vec t =>
    cases o <;> simp only [Obj.canon] <;> (first | (simp [fromReflect]; done) | skip)
    rename_i u xs
    rw [fromReflect_vec, fromReflect_vec, List.map_map,
      optAll_map_comm (f := fun x => fromReflect E t x) (g := Obj.canon)]
    · cases optAll (xs.map fun x => fromReflect E t x) <;> simp [Obj.canon]
    · intro x hx
      have hsize := List.sizeOf_lt_of_mem hx
      exact fromReflect_canon_comm hO hK t x (hv.parts (vec_parts hx _))
  | .array t n =>
    cases o <;> simp only [Obj.canon] <;> (first | (simp [fromReflect]; done) | skip)
    rename_i u xs
    rw [fromReflect_array, fromReflect_array, List.map_map,
      optAll_map_comm (f := fun x => fromReflect E t x) (g := Obj.canon)]
    · cases optAll (xs.map fun x => fromReflect E t x) with
      | none => rfl
      | some ys =>
        simp only [Option.map_some, Option.bind_some, List.length_map]
        split <;> simp [Obj.canon]
    · intro x hx
      have hsize := List.sizeOf_lt_of_mem hx
      exact fromReflect_canon_comm hO hK t x (hv.parts (vec_parts hx _))
  | .map kt vt =>
    cases o <;> simp only [Obj.canon] <;> (first | (simp [fromReflect]; done) | skip)
    rename_i u w kvs
    rw [fromReflect_map, fromReflect_map, List.map_map,
      optAll_map_comm (f := fun p : Obj × Obj => (fromReflect E kt p.1).bind fun k =>
        (fromReflect E vt p.2).map fun v => (k, v)) (g := canonPair)]
    · cases hl : optAll (kvs.map fun p => (fromReflect E kt p.1).bind fun k =>
        (fromReflect E vt p.2).map fun v => (k, v)) with
      | none => rfl
      | some l =>
        simp only [Option.map_some, Obj.canon]
        rw [bmOfList_canon hO hK]
        · rfl
        · intro y hy
          obtain ⟨hlen, hi⟩ := optAll_map_inv hl
          obtain ⟨i, hyi⟩ := List.getElem?_of_mem hy
          obtain ⟨x, hx⟩ := align_pos hlen hyi
          have hm := List.mem_of_getElem? hx
          obtain ⟨k, hk, hh⟩ := Option.bind_eq_some_iff.mp (hi i x y hx hyi)
          obtain ⟨v, hv', rfl⟩ := Option.map_eq_some_iff.mp hh
          exact fromReflect_sound hO _ _ (hv.parts (map_fst_parts hm _ _)) hk
    · intro p hp
      have h1 := sizeOf_fst_lt_of_mem hp
      have h2 := sizeOf_snd_lt_of_mem hp
      simp only [Function.comp_apply]
      rw [fromReflect_canon_comm hO hK kt p.1 (hv.parts (map_fst_parts hp _ _)),
        fromReflect_canon_comm hO hK vt p.2 (hv.parts (map_snd_parts hp _ _))]
      cases fromReflect E kt p.1 with
      | none => rfl
      | some k =>
        simp only [Option.map_some, Option.bind_some]
        cases fromReflect E vt p.2 <;> rfl
  | .box t =>
    rw [fromReflect_box, fromReflect_box]
    exact fromReflect_canon_comm hO hK t o hv
  | .value => simp [fromReflect_value, toValue_canon, toObj_canon]
  | .structValue =>
    rw [fromReflect, fromReflect, canon_kind]
    split
    · rw [canon_namedIter, dynStruct_canon]
      simp only [Option.map_some, ← toObj_canon, Value.canon]
    · rfl
  | .tupleStructValue =>
    rw [fromReflect, fromReflect, canon_kind]
    split
    · simp only [canon_posIter, List.map_map, Function.comp_def, toValue_canon, Option.map_some, ← toObj_canon,
        Value.canon]
    · rfl
  | .tupleValue =>
    rw [fromReflect, fromReflect, canon_kind]
    split
    · simp only [canon_posIter, List.map_map, Function.comp_def, toValue_canon, Option.map_some, ← toObj_canon,
        Value.canon]
    · rfl
  | .enumValue =>
    rw [fromReflect, fromReflect, canon_variantKind, canon_variantName]
    split <;> simp only [canon_namedIter, canon_posIter, dynStruct_canon, List.map_map, Function.comp_def,
      toValue_canon, Option.map_some, ← toObj_canon, Option.map_none, Value.canon]
termination_by (sizeOf o, sizeOf t)
decreasing_by
  all_goals first
    | (apply Prod.Lex.left; first | assumption | (simp_all; omega) | omega)
    | (apply Prod.Lex.right; simp_all; try omega)

theorem mapGet_canon {E : Env} (hO : OrdLaws E) (hK : KeysShown E) {o k : Obj} (ho : o.OK E) (hk : k.OK E) :
    o.canon.mapGet E k.canon = (o.mapGet E k).map Obj.canon := by
  cases o <;> simp only [Obj.canon, Obj.mapGet, Option.map_none]
  rename_i kt vt kvs
  obtain ⟨_, h2, _⟩ := OK.map_inv hO ho
  rw [fromReflect_canon_comm hO hK kt k hk]
  cases hf : fromReflect E kt k with
  | none => rfl
  | some k' => exact bmGet_canon hO hK (fromReflect_sound hO _ _ hk hf) h2

/-! ## `reflect_eq` -/

theorem reflectEq_canon_iff {E : Env} (hO : OrdLaws E) (hK : KeysShown E) {x : Obj}
    (hx : x.OK E) : ∀ {y : Obj}, y.OK E →
    (reflectEq E x.canon y.canon = some true ↔ reflectEq E x y = some true) := by
  induction x using Obj.ind with
  | h x ih =>
    intro y hy
    have ih : ∀ {a b : Obj}, a ∈ x.parts → b ∈ y.parts →
        (reflectEq E a.canon b.canon = some true ↔ reflectEq E a b = some true) := fun {a b} ha hb =>
      ih a (Obj.parts_size ha) (hx.parts ha) (hy.parts hb)
    rw [reflectEq_iff, reflectEq_iff]
    constructor
    · intro h
      refine ⟨by simpa only [canon_kind] using h.kind, by simpa only [canon_kind] using h.shown,
        by simpa only [canon_variantName] using h.vname, by simpa only [canon_variantKind] using h.vkind,
        by simpa only [canon_fieldsLen] using h.len, fun s s' h1 h2 => by
          rw [← Scalar.eqv_canon]
          exact h.scalar _ _ (by rw [canon_asScalar, h1]; rfl) (by rw [canon_asScalar, h2]; rfl), ?_, ?_, ?_⟩
      · intro p hp
        obtain ⟨b, hb, hr⟩ := h.named (p.1, p.2.canon) (by
          rw [canon_namedIter]; exact List.mem_map.mpr ⟨p, hp, rfl⟩)
        rw [canon_field] at hb
        obtain ⟨b', hb', rfl⟩ := Option.map_eq_some_iff.mp hb
        exact ⟨b', hb', (ih (Obj.namedIter_parts hx.dynVis hp) (Obj.field_parts hb')).mp hr⟩
      · intro i a b ha hb
        refine (ih (Obj.posIter_parts (List.mem_of_getElem? ha)) (Obj.posIter_parts (List.mem_of_getElem? hb))).mp
          (h.pos i _ _ ?_ ?_)
        · rw [canon_posIter, List.getElem?_map, ha]; rfl
        · rw [canon_posIter, List.getElem?_map, hb]; rfl
      · intro p hp
        obtain ⟨kt, vt, kvs, rfl⟩ := entries_isMap hp
        obtain ⟨b, hb, hr⟩ := h.entries (p.1.canon, p.2.canon) (by
          rw [canon_entries]; exact List.mem_map.mpr ⟨p, hp, rfl⟩)
        rw [mapGet_canon hO hK hy (hx.parts (map_fst_parts hp _ _))] at hb
        obtain ⟨b', hb', rfl⟩ := Option.map_eq_some_iff.mp hb
        exact ⟨b', hb', (ih (map_snd_parts hp _ _) (Obj.mapGet_parts hb')).mp hr⟩
    · intro h
      refine ⟨by simpa only [canon_kind] using h.kind, by simpa only [canon_kind] using h.shown,
        by simpa only [canon_variantName] using h.vname, by simpa only [canon_variantKind] using h.vkind,
        by simpa only [canon_fieldsLen] using h.len, fun s s' h1 h2 => by
          rw [canon_asScalar] at h1 h2
          obtain ⟨a, ha, rfl⟩ := Option.map_eq_some_iff.mp h1
          obtain ⟨b, hb, rfl⟩ := Option.map_eq_some_iff.mp h2
          rw [Scalar.eqv_canon]
          exact h.scalar _ _ ha hb, ?_, ?_, ?_⟩
      · intro p hp
        rw [canon_namedIter] at hp
        obtain ⟨q, hq, rfl⟩ := List.mem_map.mp hp
        obtain ⟨b, hb, hr⟩ := h.named q hq
        exact ⟨b.canon, by simp only [canon_field, hb, Option.map_some],
          (ih (Obj.namedIter_parts hx.dynVis hq) (Obj.field_parts hb)).mpr hr⟩
      · intro i a b ha hb
        rw [canon_posIter, List.getElem?_map] at ha hb
        obtain ⟨a', ha', rfl⟩ := Option.map_eq_some_iff.mp ha
        obtain ⟨b', hb', rfl⟩ := Option.map_eq_some_iff.mp hb
        exact (ih (Obj.posIter_parts (List.mem_of_getElem? ha')) (Obj.posIter_parts (List.mem_of_getElem? hb'))).mpr
          (h.pos i _ _ ha' hb')
      · intro p hp
        rw [canon_entries] at hp
        obtain ⟨q, hq, rfl⟩ := List.mem_map.mp hp
        obtain ⟨kt, vt, kvs, rfl⟩ := entries_isMap hq
        obtain ⟨b, hb, hr⟩ := h.entries q hq
        exact ⟨b.canon, by
          simp only [mapGet_canon hO hK hy (hx.parts (map_fst_parts hq _ _)), hb, Option.map_some],
          (ih (map_snd_parts hq _ _) (Obj.mapGet_parts hb)).mpr hr⟩

theorem reflectEq_canon {E : Env} (hO : OrdLaws E) (hK : KeysShown E) {x y : Obj}
    (hx : x.OK E) (hy : y.OK E) : reflectEq E x.canon y.canon = reflectEq E x y :=
  opt_bool_eq (reflectEq_total (OK.canon hO hK hx) (OK.canon hO hK hy)) (reflectEq_total hx hy)
    (reflectEq_canon_iff hO hK hx hy)

/-! ## `patch` -/

theorem bmModify_canon {E : Env} (hO : OrdLaws E) (hK : KeysShown E) {t : Ty} {k : Obj} (hk : HasTy E t k)
    {f g : Obj → Obj} : ∀ {l : List (Obj × Obj)}, (∀ p ∈ l, HasTy E t p.1) →
    (∀ p ∈ l, g p.2.canon = (f p.2).canon) →
    bmModify (E.kcmp t) k.canon g (l.map canonPair) = (bmModify (E.kcmp t) k f l).map canonPair
  | [], _, _ => rfl
  | (k', v') :: r, h, hf => by
    have hk' := h (k', v') (by simp)
    simp only [List.map_cons, canonPair, bmModify, kcmp_canon' hO hK hk hk']
    split
    · simp only [List.map_cons, canonPair, hf (k', v') (by simp)]
    · have := bmModify_canon hO hK hk (l := r) (fun p hp => h p (by simp [hp])) fun p hp => hf p (by simp [hp])
      simp only [List.map_cons, canonPair] at this ⊢
      rw [this]

theorem patch_canon {E : Env} (hO : OrdLaws E) (hK : KeysShown E) {v : Obj} (hv : v.OK E) :
    ∀ {x : Obj}, x.OK E → patch E x.canon v.canon = (patch E x v).canon := by
  induction v using Obj.ind with
  | h v ihv =>
    intro x hx
    have fld : ∀ {y : Obj} {w : Option Obj}, (y.isHidden = true ∨ y ∈ x.parts) →
        (∀ w', w = some w' → w'.OK E ∧ sizeOf w' < sizeOf v) →
        patchO E y.canon (w.map Obj.canon) = (patchO E y w).canon := by
      intro y w hy hw
      rcases hy with hy | hy
      · rw [patchO_of_hidden E (by rw [isHidden_canon]; exact hy), patchO_of_hidden E hy]
      · cases w with
        | none => rfl
        | some w' => exact ihv w' (hw w' rfl).2 (hw w' rfl).1 (hx.parts hy)
    have named : ∀ fs : List (String × Obj), (∀ p ∈ fs, p.2.isHidden = true ∨ p.2 ∈ x.parts) →
        patchNamed E v.canon (fs.map fun p => (p.1, p.2.canon)) =
          (patchNamed E v fs).map fun p => (p.1, p.2.canon) := by
      intro fs h
      simp only [patchNamed, List.map_map]
      refine List.map_congr_left fun p hp => ?_
      simp only [Function.comp_apply, canon_field]
      rw [fld (h p hp) fun w hw => ⟨OK_field hv hw, Obj.field_size hw⟩]
    have pos : ∀ fs : List Obj, (∀ y ∈ fs, y.isHidden = true ∨ y ∈ x.parts) →
        patchPos E v.canon (fs.map Obj.canon) = (patchPos E v fs).map Obj.canon := by
      intro fs h
      simp only [patchPos]
      apply List.ext_getElem?
      intro i
      simp only [List.getElem?_mapIdx, List.getElem?_map]
      cases hi : fs[i]? with
      | none => rfl
      | some y =>
        simp only [Option.map_some, canon_fieldAt]
        rw [fld (h y (List.mem_of_getElem? hi)) fun w hw => ⟨OK_fieldAt hv hw, Obj.fieldAt_size hw⟩]
    have hn : ∀ {fs : List (String × Obj)}, (visFields fs).map (·.2) ⊆ x.parts →
        ∀ p ∈ fs, p.2.isHidden = true ∨ p.2 ∈ x.parts := by
      intro fs h p hp
      cases hh : p.2.isHidden with
      | true => exact .inl rfl
      | false => exact .inr (h (List.mem_map.mpr ⟨p, by simp [visFields, hp, hh], rfl⟩))
    have hpos : ∀ {fs : List Obj}, visPos fs ⊆ x.parts →
        ∀ y ∈ fs, y.isHidden = true ∨ y ∈ x.parts := by
      intro fs h p hp
      cases hh : p.isHidden with
      | true => exact .inl rfl
      | false => exact .inr (h (by simp [visPos, hp, hh]))
    have fields : x.kind = .enum → patchFields E v.canon x.canon = (patchFields E v x).canon := by
      intro hk
      cases x <;> simp only [Obj.kind, reduceCtorEq] at hk
      case enumS tag vn fs =>
        simp only [Obj.canon, patchFields, named fs (hn fun a ha => by simpa [Obj.parts] using ha)]
      case enumT tag vn fs =>
        simp only [Obj.canon, patchFields, pos fs (hpos fun a ha => by simpa [Obj.parts] using ha)]
      case enumU => simp only [Obj.canon, patchFields]
    by_cases hk : x.kind = .enum
    · have ht : (∃ n, x.typeOf = some (.named n)) ∨ x.typeOf = some .enumValue := by
        rcases enum_type hO hk hx with h | ⟨n, _, _, h, _⟩
        · exact .inr h
        · exact .inl ⟨n, h⟩
      rcases ht with ⟨n, ht⟩ | ht
      · rw [patch_enum_derived E hk ht, patch_enum_derived E (by rw [canon_kind]; exact hk)
          (by rw [canon_typeOf]; exact ht), canon_isTy, canon_kind, fromReflect_canon_comm hO hK _ _ hv,
          canon_variantName, canon_variantName, fields hk]
        split
        · rfl
        · split
          · cases fromReflect E (.named n) v with
            | none => dsimp only [Option.map_none]; split <;> rfl
            | some y => rfl
          · rfl
      · rw [patch_enum_dyn E hk ht, patch_enum_dyn E (by rw [canon_kind]; exact hk)
          (by rw [canon_typeOf]; exact ht), canon_kind, fromReflect_canon_comm hO hK _ _ hv,
          canon_variantName, canon_variantName, fields hk]
        split
        · split
          · rfl
          · cases fromReflect E .enumValue v <;> rfl
        · rfl
    · cases x <;> simp only [Obj.kind, reduceCtorEq, not_true_eq_false] at hk
      all_goals first
        | (case scalar s =>
            simp only [Obj.canon, patch_scalar, canon_isTy, Scalar.canon_kind]
            split <;> simp [Obj.canon])
        | (case nonzero k n =>
            simp only [Obj.canon, patch_nonzero, fromReflect_canon_comm hO hK _ _ hv]
            cases fromReflect E (.nonzero k) v <;> simp [Obj.canon])
        | (case struct tag fs =>
            simp only [Obj.canon, patch_struct, canon_kind]
            split
            · simp only [Obj.canon, named fs (hn fun a ha => by simpa [Obj.parts] using ha)]
            · simp only [Obj.canon])
        | (case tupleStruct tag fs =>
            simp only [Obj.canon, patch_tupleStruct, canon_kind]
            split
            · simp only [Obj.canon, pos fs (hpos fun a ha => by simpa [Obj.parts] using ha)]
            · simp only [Obj.canon])
        | (case tuple tag fs =>
            simp only [Obj.canon, patch_tuple, canon_kind]
            split
            · simp only [Obj.canon, pos fs (hpos fun a ha => by simpa [Obj.parts] using ha)]
            · simp only [Obj.canon])
        | (case vec t xs =>
            simp only [Obj.canon, patch_vec, canon_kind]
            split
            · simp only [Obj.canon, pos xs fun a ha => .inr (by simpa [Obj.parts] using ha)]
            · simp only [Obj.canon])
        | (case array t xs =>
            simp only [Obj.canon, patch_array, canon_kind]
            split
            · simp only [Obj.canon, pos xs fun a ha => .inr (by simpa [Obj.parts] using ha)]
            · simp only [Obj.canon])
        | (case hidden d => simp only [Obj.canon, patch_hidden])
        | skip
      case map kt vt kvs =>
        by_cases hvk : v.kind = .map
        · cases v <;> simp only [Obj.kind, reduceCtorEq] at hvk
          rename_i u w new
          obtain ⟨_, h2, h3⟩ := OK.map_inv hO hx
          simp only [Obj.canon, patch_map]
          have key : ∀ (l m : List (Obj × Obj)), (∀ p ∈ l, p ∈ new) → (∀ p ∈ m, HasTy E kt p.1) →
              (∀ p ∈ m, p.2.OK E) → (l.map canonPair).foldl (patchEntry E kt) (m.map canonPair) =
                (l.foldl (patchEntry E kt) m).map canonPair := by
            intro l
            induction l with
            | nil => intros; rfl
            | cons a r ih =>
              intro m hl hm hm2
              have ha := hl a (by simp)
              have ok1 := hv.parts (map_fst_parts ha u w)
              have ok2 := hv.parts (map_snd_parts ha u w)
              have hs := Obj.parts_size (map_snd_parts ha u w)
              simp only [List.map_cons, List.foldl_cons]
              have e : patchEntry E kt (m.map canonPair) (canonPair a) = (patchEntry E kt m a).map canonPair := by
                simp only [patchEntry, canonPair]
                rw [fromReflect_canon_comm hO hK kt a.1 ok1]
                cases hf : fromReflect E kt a.1 with
                | none => rfl
                | some k =>
                  exact bmModify_canon hO hK (fromReflect_sound hO _ _ ok1 hf) hm fun p hp =>
                    ihv a.2 hs ok2 (hm2 p hp)
              rw [e]
              refine ih _ (fun p hp => hl p (by simp [hp])) ?_ ?_
              · intro p hp
                simp only [patchEntry] at hp
                split at hp
                · exact hm p hp
                · have := List.mem_map_of_mem (f := (·.1)) hp
                  rw [bmModify_keys] at this
                  obtain ⟨q, hq, he⟩ := List.mem_map.mp this
                  exact he ▸ hm q hq
              · intro p hp
                simp only [patchEntry] at hp
                split at hp
                · exact hm2 p hp
                · exact bmModify_vals (E := E) (P := fun x => x.OK E) (fun x h => patch_OK hO ok2 h) hm2 p hp
          have := key new kvs (fun p hp => hp) h2 fun p hp => ⟨_, h3 p hp⟩
          simp only [show (fun p : Obj × Obj => (p.1.canon, p.2.canon)) = canonPair from rfl]
          rw [this]
        · rw [patch_map_other E kt vt kvs hvk]
          simp only [Obj.canon]
          rw [patch_map_other E kt vt _ (by rw [canon_kind]; exact hvk)]

/-! ## `at` -/

/-- The key with the representative of its value. -/
def Key.canon : Key → Key
  | .get v => .get v.canon
  | k => k

theorem valueToUsize_canon (v : Value) : valueToUsize v.canon = valueToUsize v := by
  cases v <;> simp only [Value.canon, valueToUsize]
  rename_i s
  cases s <;> rfl

theorem atKey_canon {E : Env} (hO : OrdLaws E) (hK : KeysShown E) {o : Obj} (ho : o.OK E) {k : Key}
    (hk : ∀ v, k = .get v → v.WF) : o.canon.atKey E k.canon = (o.atKey E k).map Obj.canon := by
  cases k with
  | named n =>
    simp only [Key.canon, Obj.atKey, canon_kind, canon_variantKind, canon_field]
    split <;> (try split) <;> rfl
  | numbered n =>
    simp only [Key.canon, Obj.atKey, canon_kind, canon_variantKind, canon_fieldAt]
    split <;> (try split) <;> rfl
  | get v =>
    have h := mapGet_canon hO hK ho (Value.WF.ok (E := E) (hk v rfl))
    rw [← toObj_canon] at h
    simp only [Key.canon, Obj.atKey, canon_kind, canon_fieldAt, h, valueToUsize_canon]
    split <;> (try cases valueToUsize v) <;> rfl
  | «variant» v =>
    simp only [Key.canon, Obj.atKey, canon_kind, canon_variantName]
    split <;> (try split) <;> rfl

theorem atGo_canon {E : Env} (hO : OrdLaws E) (hK : KeysShown E) : ∀ (p : List Key) {o : Obj}, o.OK E →
    KeyPath.WF p → atGo E o.canon (p.map Key.canon) = (atGo E o p).map Obj.canon
  | [], _, _, _ => rfl
  | k :: r, o, ho, hp => by
    rw [List.map_cons, atGo.eq_def, atGo.eq_def E o]
    dsimp only
    rw [atKey_canon hO hK ho fun v h => hp v (by simp [h])]
    cases hx : o.atKey E k with
    | none => rfl
    | some x =>
      cases r with
      | nil => rfl
      | cons k' r' =>
        exact atGo_canon hO hK (k' :: r') (OK_atKey ho hx) fun v h => hp v (by simp only [List.mem_cons] at h ⊢; exact .inr h)

theorem atPath_canon {E : Env} (hO : OrdLaws E) (hK : KeysShown E) {o : Obj} (ho : o.OK E) {p : KeyPath}
    (hp : p.WF) : atPath E o.canon (List.map Key.canon p) = (atPath E o p).map Obj.canon := by
  cases p with
  | nil => rfl
  | cons k r => exact atGo_canon hO hK (k :: r) ho hp

theorem cloneReflect_canon {E : Env} (hO : OrdLaws E) (hK : KeysShown E) {t : Ty} {x : Obj} (hx : HasTy E t x) :
    cloneReflect E x.canon = (cloneReflect E x).map Obj.canon := by
  have h := fun t => fromReflect_canon_comm hO hK t x.toValue.toObj (Value.WF.ok hx.toValue_wf)
  simp only [cloneReflect, canon_typeOf, toValue_canon, toObj_canon, h]
  split <;> (try split) <;> simp

end Mirror
