import Verif.Lemmas.ReflectEq

set_option linter.unusedSimpArgs false

/-!
# `reflect_eq`: transitivity, reflexivity, comparison with `to_value`
-/

namespace Mirror

/-! ## Transitivity -/

theorem pos_isPos {o : Obj} (h : o.posIter ≠ []) :
    o.kind = .tupleStruct ∨ o.kind = .tuple ∨ o.kind = .list ∨ o.kind = .array ∨
      o.variantKind = some .tuple := by
  cases o <;> simp [Obj.posIter] at h <;> simp [Obj.kind, Obj.variantKind]

theorem EqBody.trans {E : Env} (hD : DeclsOK E) (hO : OrdLaws E) (hS : SkipsLastAll E)
    {K : Ty → Prop} (hV : KeysByValue E K) {R R' R'' : Obj → Obj → Prop} {a b c : Obj}
    (ha : Fine E K a) (hb : Fine E K b) (hc : Fine E K c)
    (hR : ∀ x ∈ a.parts, ∀ y ∈ b.parts, ∀ z ∈ c.parts, R x y → R' y z → R'' x z)
    (h : EqBody E R a b) (h' : EqBody E R' b c) : EqBody E R'' a c := by
  have rb := regular hD hO hS hb.ok hb.names
  have ra := regular hD hO hS ha.ok ha.names
  refine ⟨h.kind.trans h'.kind, h.shown, h.vname.trans h'.vname, h.vkind.trans h'.vkind,
    h.len.trans h'.len, ?_, ?_, ?_, ?_⟩
  · intro s s'' hs hs''
    obtain ⟨s', hs'⟩ := asScalar_some (h.kind ▸ scalar_kind hs)
    exact Scalar.eqv_trans (h.scalar _ _ hs hs') (h'.scalar _ _ hs' hs'')
  · intro p hp
    obtain ⟨y, hy, r1⟩ := h.named p hp
    obtain ⟨z, hz, r2⟩ := h'.named (p.1, y) ((rb.field_iff _ _).mp hy)
    exact ⟨z, hz, hR _ (Obj.namedIter_parts ha.ok.dynVis hp) _ (Obj.field_parts hy) _
      (Obj.field_parts hz) r1 r2⟩
  · intro i x z hx hz
    have ka := pos_isPos (List.ne_nil_of_mem (List.mem_of_getElem? hx))
    have kb := ka
    rw [h.kind, h.vkind] at kb
    have lb : b.posIter.length = a.posIter.length := by
      rw [rb.pos_len (.inr kb), ra.pos_len (.inr ka), h.len]
    have hi := (List.getElem?_eq_some_iff.mp hx).1
    have hy : b.posIter[i]? = some (b.posIter[i]'(lb ▸ hi)) := List.getElem?_eq_getElem _
    exact hR _ (Obj.posIter_parts (List.mem_of_getElem? hx)) _
      (Obj.posIter_parts (List.mem_of_getElem? hy)) _
      (Obj.posIter_parts (List.mem_of_getElem? hz)) (h.pos _ _ _ hx hy) (h'.pos _ _ _ hy hz)
  · intro p hp
    obtain ⟨y, hy, r1⟩ := h.entries p hp
    obtain ⟨kta, vta, l, rfl⟩ := entries_isMap hp
    obtain ⟨ktb, vtb, m, rfl⟩ := kind_map (o := b) (by rw [← h.kind]; rfl)
    obtain ⟨ktc, vtc, n, rfl⟩ := kind_map (o := c) (by rw [← h'.kind]; rfl)
    have Ka := ha.keys.here _ _ _ rfl
    have Kb := hb.keys.here _ _ _ rfl
    have Kc := hc.keys.here _ _ _ rfl
    obtain ⟨a1, a2, a3⟩ := OK.map_inv hO ha.ok
    obtain ⟨b1, b2, b3⟩ := OK.map_inv hO hb.ok
    obtain ⟨k, hk, ek⟩ := (mapGet_value hO hV hb.ok Kb Ka (a2 p hp)).mp hy
    obtain ⟨z, hz, r2⟩ := h'.entries (k, y) hk
    obtain ⟨k', hk', ek'⟩ := (mapGet_value hO hV hc.ok Kc Kb (b2 _ hk)).mp hz
    refine ⟨z, (mapGet_value hO hV hc.ok Kc Ka (a2 p hp)).mpr ⟨k', hk', ?_⟩,
      hR _ (map_snd_parts hp _ _) _ (Obj.mapGet_parts hy) _ (Obj.mapGet_parts hz) r1 r2⟩
    rw [valueCmpOn.eq_trans _ _ _ trivial trivial trivial ek]
    exact ek'

theorem reflectEq_true_trans {E : Env} (hD : DeclsOK E) (hO : OrdLaws E) (hS : SkipsLastAll E)
    {K : Ty → Prop} (hV : KeysByValue E K) {a : Obj} : ∀ {b c : Obj}, Fine E K a → Fine E K b →
    Fine E K c → reflectEq E a b = some true → reflectEq E b c = some true →
    reflectEq E a c = some true := by
  induction a using Obj.ind with
  | h a ih =>
    intro b c ha hb hc h h'
    rw [reflectEq_iff] at h h' ⊢
    refine h.trans hD hO hS hV ha hb hc ?_ h'
    intro x hx y hy z hz
    exact ih x (Obj.parts_size hx) (ha.parts hx) (hb.parts hy) (hc.parts hz)

/-! ## Reflexivity -/

theorem namedIter_field {E : Env} (hD : DeclsOK E) (hO : OrdLaws E) {o : Obj} (h : o.OK E)
    {p : String × Obj} (hp : p ∈ o.namedIter) : o.field p.1 = some p.2 := by
  have nn := OK.named_nodup hD hO h
  have dn := OK.dyn_names hO h
  have hv := h.dynVis
  cases o <;> simp only [Obj.namedIter, List.not_mem_nil] at hp
  case struct tag fs =>
    cases tag with
    | derived n => exact (lookup_iff (visFields_nodup (nn.1 _ _ rfl))).mpr hp
    | dyn ns =>
      show lookup p.1 (visFields fs) = _
      rw [visFields_all hv]
      exact ((mem_dynIter fun n hn => (dn.1 _ _ rfl n).mp hn).mp hp).2
  case enumS tag v fs =>
    cases tag with
    | derived n =>
      refine (lookup_iff (visFields_nodup (nn.2 _ _ _ rfl))).mpr ?_
      refine List.mem_filter.mpr ⟨(List.takeWhile_prefix _).subset hp, ?_⟩
      have := List.all_takeWhile (p := fun p : String × Obj => !p.2.isHidden) (l := fs)
      rw [List.all_eq_true] at this
      exact this p hp
    | dyn ns =>
      show lookup p.1 (visFields fs) = _
      rw [visFields_all hv]
      exact ((mem_dynIter fun n hn => (dn.2 _ _ _ rfl n).mp hn).mp hp).2

/-- A key without arrays finds its own entry. -/
theorem mapGet_self {E : Env} (hD : DeclsOK E) (hO : OrdLaws E) (hK : KeysShown E) {kt vt : Ty}
    {kvs : List (Obj × Obj)} (h : (Obj.map kt vt kvs).OK E) {p : Obj × Obj} (hp : p ∈ kvs)
    (ha : p.1.ArrayFree) : (Obj.map kt vt kvs).mapGet E p.1 = some p.2 := by
  obtain ⟨h1, h2, h3⟩ := OK.map_inv hO h
  obtain ⟨y, hy, hr⟩ := selfconv hD hO hK (h2 p hp) ha
  refine (mapGet_iff hO h ⟨_, h2 p hp⟩).mpr ⟨p.1, hp, y, hy, ?_⟩
  apply hK kt _ _ (fromReflect_sound hO _ _ ⟨_, h2 p hp⟩ hy) (h2 p hp)
  rw [← toValue_reset y, hr, toValue_reset, Value.cmp_self]

theorem reflectEq_self {E : Env} (hD : DeclsOK E) (hO : OrdLaws E) (hK : KeysShown E) {x : Obj}
    (hx : x.OK E) (hn : x.NoNaN) (ha : x.KeysArrayFree) : reflectEq E x x = some true := by
  induction x using Obj.ind with
  | h x ih =>
    have ih : ∀ y ∈ x.parts, reflectEq E y y = some true := fun y hy =>
      ih y (Obj.parts_size hy) (hx.parts hy) (hn.parts hy) (ha.parts hy)
    rw [reflectEq_iff]
    refine ⟨rfl, ?_, rfl, rfl, rfl, ?_, ?_, ?_, ?_⟩
    · rw [Ne, kind_cases, hx.not_hidden]; simp
    · intro s s' hs hs'
      rw [hs] at hs'; cases hs'
      exact Scalar.eqv_refl (hn.here s hs)
    · intro p hp
      exact ⟨p.2, namedIter_field hD hO hx hp, ih _ (Obj.namedIter_parts hx.dynVis hp)⟩
    · intro i y z hy hz
      rw [hy] at hz; cases hz
      exact ih _ (Obj.posIter_parts (List.mem_of_getElem? hy))
    · intro p hp
      obtain ⟨kt, vt, kvs, rfl⟩ := entries_isMap hp
      exact ⟨p.2, mapGet_self hD hO hK hx hp (ha.here _ _ _ rfl p hp), ih _ (map_snd_parts hp _ _)⟩

/-- Looking up any key in a map whose keys are fixed-size arrays never succeeds with an array. -/
theorem reflectEq_array_keys {E : Env} {t vt : Ty} {n : Nat} {kvs : List (Obj × Obj)} (hne : kvs ≠ [])
    (h : ∀ p ∈ kvs, ∃ xs, p.1 = .array t xs) :
    reflectEq E (.map (.array t n) vt kvs) (.map (.array t n) vt kvs) = some false := by
  have hg : ∀ p ∈ kvs, (Obj.map (.array t n) vt kvs).mapGet E p.1 = none := by
    intro p hp
    obtain ⟨xs, hx⟩ := h p hp
    rw [Obj.mapGet, hx, fromReflect]
    · rfl
    · intro _ _ h; cases h
  rw [reflectEq]
  simp only [Obj.kind, Obj.fieldsLen, if_true]
  cases kvs with
  | nil => exact absurd rfl hne
  | cons p r => simp only [List.map_cons, hg p (by simp), eqAll]

/-! ## `to_value` -/

/-- How the accessors of `x.to_value()` relate to those of `x`. -/
structure ValueView (x v : Obj) : Prop where
  kind : v.kind = x.kind
  vname : v.variantName = x.variantName
  vkind : v.variantKind = x.variantKind
  len : v.fieldsLen = x.fieldsLen
  scalar : v.asScalar = x.asScalar
  field : ∀ n, v.field n = (x.field n).map fun y => y.toValue.toObj
  named : v.namedIter = x.namedIter.map fun p => (p.1, p.2.toValue.toObj)
  pos : v.posIter = x.posIter.map fun y => y.toValue.toObj
  entries : ∀ p, p ∈ v.entries ↔ ∃ q ∈ x.entries, p = (q.1.toValue.toObj, q.2.toValue.toObj)

theorem dynIter_map (fs : List (String × Obj)) (ns : List String) :
    dynIter (fs.map fun p => (p.1, p.2.toValue.toObj)) ns =
      (dynIter fs ns).map fun p => (p.1, p.2.toValue.toObj) := by
  induction ns with
  | nil => rfl
  | cons n ns ih =>
    simp only [dynIter, lookup_map (fun x : Obj => x.toValue.toObj)]
    cases lookup n fs <;> simp [ih]

/-- Iterating over the struct built from the visible fields. -/
theorem dynIter_toValue {fs : List (String × Obj)} (hn : (fs.map (·.1)).Nodup) :
    dynIter ((bmOfList strCmp ((visFields fs).map fun p => (p.1, p.2.toValue))).map
      fun p => (p.1, p.2.toObj)) ((visFields fs).map (·.1)) =
      (visFields fs).map fun p => (p.1, p.2.toValue.toObj) := by
  have hl : ∀ p ∈ visFields fs, lookup p.1
      ((bmOfList strCmp ((visFields fs).map fun p => (p.1, p.2.toValue))).map
        fun p => (p.1, p.2.toObj)) = some p.2.toValue.toObj := by
    intro p hp
    rw [lookup_toValue hn, lookup_of_mem_nodup (visFields_nodup hn) (x := p.2) hp]; rfl
  generalize (bmOfList strCmp ((visFields fs).map fun p => (p.1, p.2.toValue))).map
      (fun p => (p.1, p.2.toObj)) = m at hl
  generalize visFields fs = l at hl
  induction l with
  | nil => rfl
  | cons p r ih =>
    simp only [List.map_cons, dynIter, hl p (by simp)]
    rw [ih fun q hq => hl q (by simp [hq])]

theorem takeWhile_toValue {fs : List Obj} (h : HiddenLast fs) :
    (((visPos fs).map fun x => x.toValue).map fun v => v.toObj).takeWhile (fun x => !x.isHidden) =
      (fs.takeWhile fun x => !x.isHidden).map fun x => x.toValue.toObj := by
  rw [h.takeWhile, takeWhile_toObj, List.map_map]; rfl

theorem filter_toObj (fs : List Value) :
    (fs.map fun v => v.toObj).filter (fun x => !x.isHidden) = fs.map fun v => v.toObj := by
  rw [List.filter_eq_self]
  intro x hx
  obtain ⟨v, _, rfl⟩ := List.mem_map.mp hx
  simp [v.toObj_not_hidden]

theorem OK.tuple_vis {E : Env} (hO : OrdLaws E) {tag : TTag} {fs : List Obj}
    (h : (Obj.tuple tag fs).OK E) : visPos fs = fs := by
  rw [visPos, List.filter_eq_self]
  intro x hx
  cases tag with
  | typed ts =>
    cases OK.typed hO h rfl with
    | tuple _ _ hl h =>
      obtain ⟨i, hi⟩ := List.getElem?_of_mem hx
      obtain ⟨t, ht⟩ := align_pos hl hi
      simp [(h i t x ht hi).not_hidden]
  | dyn =>
    cases OK.typed hO h rfl with
    | tupleValue fs' _ hw ho =>
      rw [Value.toObj] at ho; cases ho
      obtain ⟨v, _, rfl⟩ := List.mem_map.mp hx
      simp [v.toObj_not_hidden]

theorem toValue_view {E : Env} (hD : DeclsOK E) (hO : OrdLaws E) (hK : KeysShown E)
    (hS : SkipsLastAll E) {x : Obj} (hx : x.OK E) (hna : x.kind ≠ .array) :
    ValueView x x.toValue.toObj := by
  have nn := OK.named_nodup hD hO hx
  have hl := OK.hiddenLast hO hS.1 hx
  have hv := hx.dynVis
  cases x with
  | hidden d => have := hx.not_hidden; simp [Obj.isHidden] at this
  | scalar s => rw [Obj.toValue, Value.toObj]; constructor <;> simp [Obj.field, Obj.namedIter, Obj.posIter, Obj.entries]
  | nonzero k n =>
    rw [Obj.toValue, Value.toObj]
    constructor <;> simp [Obj.kind, Obj.variantName, Obj.variantKind, Obj.fieldsLen, Obj.asScalar,
      Obj.field, Obj.namedIter, Obj.posIter, Obj.entries]
  | array t xs => exact absurd rfl hna
  | struct tag fs =>
    cases tag with
    | derived n =>
      have hn := nn.1 _ _ rfl
      rw [toValue_struct, Value.toObj]
      refine ⟨rfl, rfl, rfl, by simp [Obj.fieldsLen], rfl, ?_, ?_, by simp [Obj.posIter],
        by simp [Obj.entries]⟩
      · intro m
        simp only [Obj.field, toObj_visFields]
        exact lookup_toValue hn m
      · exact dynIter_toValue hn
    | dyn ns =>
      rw [Obj.toValue, Value.toObj, List.map_map]
      refine ⟨rfl, rfl, rfl, rfl, rfl, ?_, dynIter_map fs ns, by simp [Obj.posIter],
        by simp [Obj.entries]⟩
      intro m
      simp only [Obj.field]
      rw [visFields_all hv, visFields_all]
      · exact lookup_map (fun x : Obj => x.toValue.toObj) fs m
      · intro p hp
        obtain ⟨q, _, rfl⟩ := List.mem_map.mp hp
        exact q.2.toValue.toObj_not_hidden
  | enumS tag v fs =>
    cases tag with
    | derived n =>
      have hn := nn.2 _ _ _ rfl
      rw [toValue_enumS, Value.toObj]
      refine ⟨rfl, rfl, rfl, by simp [Obj.fieldsLen], rfl, ?_, ?_, by simp [Obj.posIter],
        by simp [Obj.entries]⟩
      · intro m
        simp only [Obj.field, toObj_visFields]
        exact lookup_toValue hn m
      · have e : (Obj.enumS (.derived n) v fs).namedIter = visFields fs :=
          OK.namedHiddenLast hO hS hx
        rw [e]
        exact dynIter_toValue hn
    | dyn ns =>
      rw [Obj.toValue, Value.toObj, List.map_map]
      refine ⟨rfl, rfl, rfl, rfl, rfl, ?_, dynIter_map fs ns, by simp [Obj.posIter],
        by simp [Obj.entries]⟩
      intro m
      simp only [Obj.field]
      rw [visFields_all hv, visFields_all]
      · exact lookup_map (fun x : Obj => x.toValue.toObj) fs m
      · intro p hp
        obtain ⟨q, _, rfl⟩ := List.mem_map.mp hp
        exact q.2.toValue.toObj_not_hidden
  | tupleStruct tag fs =>
    rw [toValue_tupleStruct, Value.toObj]
    refine ⟨rfl, rfl, rfl, ?_, rfl, fun _ => rfl, by simp [Obj.namedIter],
      takeWhile_toValue (hl.1 _ _ rfl), by simp [Obj.entries]⟩
    simp only [Obj.fieldsLen, filter_toObj, List.length_map]; rfl
  | enumT tag v fs =>
    rw [toValue_enumT, Value.toObj]
    refine ⟨rfl, rfl, rfl, ?_, rfl, fun _ => rfl, by simp [Obj.namedIter],
      takeWhile_toValue (hl.2.2 _ _ _ rfl), by simp [Obj.entries]⟩
    simp only [Obj.fieldsLen, filter_toObj, List.length_map]; rfl
  | tuple tag fs =>
    have e := OK.tuple_vis hO hx
    rw [Obj.toValue, Value.toObj]
    have ht := takeWhile_toValue (hl.2.1 _ _ rfl)
    rw [e] at ht
    refine ⟨rfl, rfl, rfl, ?_, rfl, fun _ => rfl, by simp [Obj.namedIter], ht, by simp [Obj.entries]⟩
    simp only [Obj.fieldsLen, filter_toObj, List.length_map]
    exact congrArg List.length e.symm
  | enumU tag v =>
    rw [Obj.toValue, Value.toObj]
    exact ⟨rfl, rfl, rfl, rfl, rfl, fun _ => rfl, rfl, rfl, by simp [Obj.entries]⟩
  | vec t xs =>
    rw [Obj.toValue, Value.toObj]
    exact ⟨rfl, rfl, rfl, by simp [Obj.fieldsLen], rfl, fun _ => rfl, rfl,
      by simp [Obj.posIter, Function.comp_def], by simp [Obj.entries]⟩
  | map kt vt kvs =>
    obtain ⟨h1, h2, h3⟩ := OK.map_inv hO hx
    have hp := bmCollect_perm (map_value_keys hO hK h1 h2)
    rw [Obj.toValue, Value.toObj]
    refine ⟨rfl, rfl, rfl, ?_, rfl, fun _ => rfl, rfl, rfl, ?_⟩
    · simp only [Obj.fieldsLen, List.length_map]
      rw [hp.length_eq, List.length_map]
    · intro p
      simp only [Obj.entries, List.mem_map]
      constructor
      · rintro ⟨a, ha, rfl⟩
        obtain ⟨q, hq, rfl⟩ := List.mem_map.mp (hp.mem_iff.mp ha)
        exact ⟨q, hq, rfl⟩
      · rintro ⟨q, hq, rfl⟩
        exact ⟨_, hp.mem_iff.mpr (List.mem_map.mpr ⟨q, hq, rfl⟩), rfl⟩

theorem Obj.ArrayFree.kind {x : Obj} (h : x.ArrayFree) : x.kind ≠ .array := by
  cases h <;> simp [Obj.kind]

theorem Obj.ArrayFree.parts {x y : Obj} (h : x.ArrayFree) (hy : y ∈ x.parts) : y.ArrayFree := by
  cases h with
  | struct _ _ h =>
    obtain ⟨p, hp, rfl⟩ := List.mem_map.mp hy
    exact h p (List.mem_filter.mp hp).1
  | enumS _ _ _ h =>
    obtain ⟨p, hp, rfl⟩ := List.mem_map.mp hy
    exact h p (List.mem_filter.mp hp).1
  | tupleStruct _ _ h => exact h y (List.mem_filter.mp hy).1
  | tuple _ _ h => exact h y (List.mem_filter.mp hy).1
  | enumT _ _ _ h => exact h y (List.mem_filter.mp hy).1
  | vec _ _ h => exact h y hy
  | map _ _ _ h h' =>
    rcases List.mem_append.mp hy with hy | hy <;> obtain ⟨p, hp, rfl⟩ := List.mem_map.mp hy
    · exact h p hp
    · exact h' p hp
  | _ => simp [Obj.parts] at hy

theorem reflectEq_toValue {E : Env} (hD : DeclsOK E) (hO : OrdLaws E) (hK : KeysShown E)
    (hS : SkipsLastAll E) {x : Obj} (hx : x.OK E) (hn : x.NoNaN) (ha : x.ArrayFree) :
    reflectEq E x x.toValue.toObj = some true ∧ reflectEq E x.toValue.toObj x = some true := by
  induction x using Obj.ind with
  | h x ih =>
    have ih : ∀ y ∈ x.parts, reflectEq E y y.toValue.toObj = some true ∧
        reflectEq E y.toValue.toObj y = some true := fun y hy =>
      ih y (Obj.parts_size hy) (hx.parts hy) (hn.parts hy) (ha.parts hy)
    have v := toValue_view hD hO hK hS hx ha.kind
    have hop : x.kind ≠ .opaque := by rw [Ne, kind_cases, hx.not_hidden]; simp
    have sc : ∀ s s', x.asScalar = some s → x.asScalar = some s' → s.eqv s' = true := by
      intro s s' hs hs'
      rw [hs] at hs'; cases hs'
      exact Scalar.eqv_refl (hn.here s hs)
    rw [reflectEq_iff, reflectEq_iff]
    refine ⟨⟨v.kind.symm, hop, v.vname.symm, v.vkind.symm, v.len.symm, by rw [v.scalar]; exact sc,
      ?_, ?_, ?_⟩, ⟨v.kind, v.kind ▸ hop, v.vname, v.vkind, v.len, by rw [v.scalar]; exact sc,
      ?_, ?_, ?_⟩⟩
    · intro p hp
      refine ⟨p.2.toValue.toObj, ?_, (ih _ (Obj.namedIter_parts hx.dynVis hp)).1⟩
      rw [v.field, namedIter_field hD hO hx hp]; rfl
    · intro i y z hy hz
      rw [v.pos, List.getElem?_map, hy] at hz
      cases hz
      exact (ih _ (Obj.posIter_parts (List.mem_of_getElem? hy))).1
    · intro p hp
      obtain ⟨kt, vt, kvs, rfl⟩ := entries_isMap hp
      obtain ⟨h1, h2, h3⟩ := OK.map_inv hO hx
      refine ⟨p.2.toValue.toObj, ?_, (ih _ (map_snd_parts hp _ _)).1⟩
      have hw : (Obj.map kt vt kvs).toValue.toObj.OK E := hx.toValue_wf.ok
      have hm := (v.entries (p.1.toValue.toObj, p.2.toValue.toObj)).mpr ⟨p, hp, rfl⟩
      rw [Obj.toValue, Value.toObj] at hw hm ⊢
      refine (mapGet_iff hO hw ⟨_, h2 p hp⟩).mpr ⟨_, hm, p.1.toValue.toObj, fromReflect_value .., ?_⟩
      rw [hO.value _ _ (h2 p hp).toValue_wf (h2 p hp).toValue_wf, Value.cmp_self]
    · intro p hp
      rw [v.named] at hp
      obtain ⟨q, hq, rfl⟩ := List.mem_map.mp hp
      exact ⟨q.2, namedIter_field hD hO hx hq, (ih _ (Obj.namedIter_parts hx.dynVis hq)).2⟩
    · intro i y z hy hz
      rw [v.pos, List.getElem?_map, hz] at hy
      cases hy
      exact (ih _ (Obj.posIter_parts (List.mem_of_getElem? hz))).2
    · intro p hp
      obtain ⟨q, hq, rfl⟩ := (v.entries p).mp hp
      obtain ⟨kt, vt, kvs, rfl⟩ := entries_isMap hq
      obtain ⟨h1, h2, h3⟩ := OK.map_inv hO hx
      refine ⟨q.2, ?_, (ih _ (map_snd_parts hq _ _)).2⟩
      refine (mapGet_iff hO hx (h2 q hq).toValue_wf.ok).mpr
        ⟨q.1, hq, q.1.reset, roundtrip hD hO hK hS.1 (h2 q hq), ?_⟩
      exact hK kt _ _ ((h2 q hq).reset hO hK) (h2 q hq) (by rw [toValue_reset, Value.cmp_self])

/-- An array is never `reflect_eq` to its own `to_value`. -/
theorem reflectEq_array_toValue {E : Env} (t : Ty) (xs : List Obj) :
    reflectEq E (.array t xs) (Obj.array t xs).toValue.toObj = some false ∧
      reflectEq E (Obj.array t xs).toValue.toObj (.array t xs) = some false := by
  rw [Obj.toValue, Value.toObj]
  constructor
  · rw [reflectEq]; simp [Obj.kind]
  · rw [reflectEq]; simp [Obj.kind]

end Mirror
