import Verif.Lemmas.ReflectEqLaws
import Verif.Lemmas.RoundTripExact
import Verif.Lemmas.PatchSelf
import Verif.Lemmas.SelfConvExact
import Verif.Spec.Compare

set_option linter.unusedSimpArgs false

/-!
# Exactly when a value is `reflect_eq` to itself and to its `to_value`
-/

namespace Mirror

theorem Scalar.eqv_self_iff (s : Scalar) : s.eqv s = true ↔ s.isNaN = false := by
  refine ⟨?_, Scalar.eqv_refl⟩
  intro h
  cases s <;> simp_all [Scalar.eqv, Scalar.isNaN, f32Eq, f64Eq]

theorem mem_walked {o x : Obj} : x ∈ o.walked ↔ (∃ p ∈ o.namedIter, p.2 = x) ∨ x ∈ o.posIter ∨
    ∃ p ∈ o.entries, p.2 = x := by
  cases o <;> simp [Obj.walked, Obj.namedIter, Obj.posIter, Obj.entries]

/-- The named fields behind `Obj.walkedAll`. -/
def Obj.allNamed : Obj → List (String × Obj)
  | .enumS (.derived _) _ fs => visFields fs
  | o => o.namedIter

theorem mem_walkedAll {o x : Obj} : x ∈ o.walkedAll ↔ (∃ p ∈ o.allNamed, p.2 = x) ∨ x ∈ o.posIter ∨
    ∃ p ∈ o.entries, p.2 = x := by
  cases o
  case enumS tag v fs =>
    cases tag <;> simp [Obj.walkedAll, Obj.walked, Obj.allNamed, Obj.namedIter, Obj.posIter, Obj.entries]
  all_goals simp [Obj.walkedAll, Obj.walked, Obj.allNamed, Obj.namedIter, Obj.posIter, Obj.entries]

theorem allNamed_parts {o : Obj} (hv : o.DynVis) {p : String × Obj} (hp : p ∈ o.allNamed) :
    p.2 ∈ o.parts := by
  cases o
  case enumS tag v fs =>
    cases tag with
    | derived n => exact List.mem_map.mpr ⟨p, hp, rfl⟩
    | dyn ns => exact Obj.namedIter_parts hv hp
  all_goals exact Obj.namedIter_parts hv hp

theorem allNamed_field {E : Env} (hD : DeclsOK E) (hO : OrdLaws E) {o : Obj} (h : o.OK E)
    {p : String × Obj} (hp : p ∈ o.allNamed) : o.field p.1 = some p.2 := by
  have nn := OK.named_nodup hD hO h
  cases o
  case enumS tag v fs =>
    cases tag with
    | derived n => exact (lookup_iff (visFields_nodup (nn.2 _ _ _ rfl))).mpr hp
    | dyn ns => exact namedIter_field hD hO h hp
  all_goals exact namedIter_field hD hO h hp

/-! ## A value and itself -/

theorem mapGet_self_iff {E : Env} (hD : DeclsOK E) (hO : OrdLaws E) (hK : KeysShown E) {kt vt : Ty}
    {kvs : List (Obj × Obj)} (h : (Obj.map kt vt kvs).OK E) {p : Obj × Obj} (hp : p ∈ kvs) {y : Obj} :
    (Obj.map kt vt kvs).mapGet E p.1 = some y ↔ NoArrayMet E kt p.1 ∧ y = p.2 := by
  obtain ⟨h1, h2, h3⟩ := OK.map_inv hO h
  have key : NoArrayMet E kt p.1 → (Obj.map kt vt kvs).mapGet E p.1 = some p.2 := by
    intro hn
    obtain ⟨k, hk⟩ := Option.isSome_iff_exists.mp ((selfconv_isSome_iff hD (h2 p hp)).mpr hn)
    refine (mapGet_iff hO h ⟨_, h2 p hp⟩).mpr ⟨p.1, hp, k, hk, ?_⟩
    apply hK kt _ _ (fromReflect_sound hO _ _ ⟨_, h2 p hp⟩ hk) (h2 p hp)
    rw [← toValue_reset k, selfconv_sound hD hO hK (h2 p hp) hk, toValue_reset, Value.cmp_self]
  constructor
  · intro hg
    obtain ⟨_, _, k, hk, _⟩ := (mapGet_iff hO h ⟨_, h2 p hp⟩).mp hg
    have hn := (selfconv_isSome_iff hD (h2 p hp)).mp (by rw [hk]; rfl)
    rw [key hn] at hg
    exact ⟨hn, (Option.some.inj hg).symm⟩
  · rintro ⟨hn, rfl⟩
    exact key hn

theorem reflectEq_self_iff {E : Env} (hD : DeclsOK E) (hO : OrdLaws E) (hK : KeysShown E) {x : Obj}
    (hx : x.OK E) : reflectEq E x x = some true ↔ x.EqualsItself E := by
  induction x using Obj.ind with
  | h x ih =>
    have ih : ∀ y ∈ x.parts, (reflectEq E y y = some true ↔ y.EqualsItself E) := fun y hy =>
      ih y (Obj.parts_size hy) (hx.parts hy)
    rw [reflectEq_iff]
    constructor
    · intro hb
      refine .mk x ⟨fun s hs => (Scalar.eqv_self_iff s).mp (hb.scalar s s hs hs), ?_⟩ ?_
      · rintro kt vt kvs rfl p hp
        obtain ⟨y, hy, _⟩ := hb.entries p hp
        exact ((mapGet_self_iff hD hO hK hx hp).mp hy).1
      · intro y hy
        rcases mem_walked.mp hy with ⟨p, hp, rfl⟩ | hy | ⟨p, hp, rfl⟩
        · obtain ⟨y, hy, hr⟩ := hb.named p hp
          rw [namedIter_field hD hO hx hp] at hy
          cases hy
          exact (ih _ (Obj.namedIter_parts hx.dynVis hp)).mp hr
        · obtain ⟨i, hi⟩ := List.getElem?_of_mem hy
          exact (ih _ (Obj.posIter_parts hy)).mp (hb.pos i _ _ hi hi)
        · obtain ⟨kt, vt, kvs, rfl⟩ := entries_isMap hp
          obtain ⟨y, hy, hr⟩ := hb.entries p hp
          obtain ⟨_, rfl⟩ := (mapGet_self_iff hD hO hK hx hp).mp hy
          exact (ih _ (map_snd_parts hp _ _)).mp hr
    · rintro ⟨_, ⟨hn, hk⟩, hd⟩
      refine ⟨rfl, ?_, rfl, rfl, rfl, ?_, ?_, ?_, ?_⟩
      · rw [Ne, kind_cases, hx.not_hidden]; simp
      · intro s s' hs hs'
        rw [hs] at hs'; cases hs'
        exact Scalar.eqv_refl (hn s hs)
      · intro p hp
        exact ⟨p.2, namedIter_field hD hO hx hp, (ih _ (Obj.namedIter_parts hx.dynVis hp)).mpr
          (hd _ (mem_walked.mpr (.inl ⟨p, hp, rfl⟩)))⟩
      · intro i y z hy hz
        rw [hy] at hz; cases hz
        have hm := List.mem_of_getElem? hy
        exact (ih _ (Obj.posIter_parts hm)).mpr (hd _ (mem_walked.mpr (.inr (.inl hm))))
      · intro p hp
        have hw := hd _ (mem_walked.mpr (.inr (.inr ⟨p, hp, rfl⟩)))
        obtain ⟨kt, vt, kvs, rfl⟩ := entries_isMap hp
        exact ⟨p.2, (mapGet_self_iff hD hO hK hx hp).mpr ⟨hk _ _ _ rfl p hp, rfl⟩,
          (ih _ (map_snd_parts hp _ _)).mpr hw⟩

/-! ## A value and its `to_value` -/

/-- How the accessors of `x.to_value()` relate to those of `x`, with skipped fields anywhere. -/
structure ValueViewAny (x v : Obj) : Prop where
  kind : v.kind = x.kind
  vname : v.variantName = x.variantName
  vkind : v.variantKind = x.variantKind
  len : v.fieldsLen = x.fieldsLen
  scalar : v.asScalar = x.asScalar
  field : ∀ n, v.field n = (x.field n).map fun y => y.toValue.toObj
  named : v.namedIter = x.allNamed.map fun p => (p.1, p.2.toValue.toObj)
  pos : ∀ (i : Nat) y, x.posIter[i]? = some y → v.posIter[i]? = some y.toValue.toObj
  entries : ∀ p, p ∈ v.entries ↔ ∃ q ∈ x.entries, p = (q.1.toValue.toObj, q.2.toValue.toObj)

theorem takeWhile_prefix_filter {α} (q : α → Bool) (l : List α) : l.takeWhile q <+: l.filter q := by
  induction l with
  | nil => simp
  | cons a l ih =>
    cases h : q a
    · simp [List.takeWhile_cons, h]
    · simpa [List.takeWhile_cons, List.filter_cons, h] using ih

theorem takeWhile_toValue_at {fs : List Obj} (i : Nat) (y : Obj)
    (h : (fs.takeWhile fun x => !x.isHidden)[i]? = some y) :
    ((((visPos fs).map fun x => x.toValue).map fun v => v.toObj).takeWhile
      fun x => !x.isHidden)[i]? = some y.toValue.toObj := by
  rw [takeWhile_toObj, List.map_map, List.getElem?_map]
  obtain ⟨t, ht⟩ := takeWhile_prefix_filter (fun x : Obj => !x.isHidden) fs
  have : (visPos fs)[i]? = some y := by
    rw [visPos, ← ht, List.getElem?_append_left (List.getElem?_eq_some_iff.mp h).1, h]
  rw [this]; rfl

theorem toValue_viewAny {E : Env} (hD : DeclsOK E) (hO : OrdLaws E) (hK : KeysShown E)
    {x : Obj} (hx : x.OK E) (hna : x.kind ≠ .array) : ValueViewAny x x.toValue.toObj := by
  have nn := OK.named_nodup hD hO hx
  have hv := hx.dynVis
  cases x with
  | hidden d => have := hx.not_hidden; simp [Obj.isHidden] at this
  | scalar s => rw [Obj.toValue, Value.toObj]; constructor <;> simp [Obj.field, Obj.allNamed, Obj.namedIter, Obj.posIter, Obj.entries]
  | nonzero k n =>
    rw [Obj.toValue, Value.toObj]
    constructor <;> simp [Obj.kind, Obj.variantName, Obj.variantKind, Obj.fieldsLen, Obj.asScalar,
      Obj.field, Obj.allNamed, Obj.namedIter, Obj.posIter, Obj.entries]
  | array t xs => exact absurd rfl hna
  | struct tag fs =>
    cases tag with
    | derived n =>
      have hn := nn.1 _ _ rfl
      rw [toValue_struct, Value.toObj]
      refine ⟨rfl, rfl, rfl, by simp [Obj.fieldsLen], rfl, ?_, ?_, by simp [Obj.posIter],
        by simp [Obj.entries]⟩
      · intro m
        simp only [Obj.field, toObj_visFields]
        exact lookup_toValue hn m
      · exact dynIter_toValue hn
    | dyn ns =>
      rw [Obj.toValue, Value.toObj, List.map_map]
      refine ⟨rfl, rfl, rfl, rfl, rfl, ?_, dynIter_map fs ns, by simp [Obj.posIter],
        by simp [Obj.entries]⟩
      intro m
      simp only [Obj.field]
      rw [visFields_all hv, visFields_all]
      · exact lookup_map (fun x : Obj => x.toValue.toObj) fs m
      · intro p hp
        obtain ⟨q, _, rfl⟩ := List.mem_map.mp hp
        exact q.2.toValue.toObj_not_hidden
  | enumS tag v fs =>
    cases tag with
    | derived n =>
      have hn := nn.2 _ _ _ rfl
      rw [toValue_enumS, Value.toObj]
      refine ⟨rfl, rfl, rfl, by simp [Obj.fieldsLen], rfl, ?_, ?_, by simp [Obj.posIter],
        by simp [Obj.entries]⟩
      · intro m
        simp only [Obj.field, toObj_visFields]
        exact lookup_toValue hn m
      · exact dynIter_toValue hn
    | dyn ns =>
      rw [Obj.toValue, Value.toObj, List.map_map]
      refine ⟨rfl, rfl, rfl, rfl, rfl, ?_, dynIter_map fs ns, by simp [Obj.posIter],
        by simp [Obj.entries]⟩
      intro m
      simp only [Obj.field]
      rw [visFields_all hv, visFields_all]
      · exact lookup_map (fun x : Obj => x.toValue.toObj) fs m
      · intro p hp
        obtain ⟨q, _, rfl⟩ := List.mem_map.mp hp
        exact q.2.toValue.toObj_not_hidden
  | tupleStruct tag fs =>
    rw [toValue_tupleStruct, Value.toObj]
    refine ⟨rfl, rfl, rfl, ?_, rfl, fun _ => rfl, by simp [Obj.namedIter, Obj.allNamed],
      takeWhile_toValue_at, by simp [Obj.entries]⟩
    simp only [Obj.fieldsLen, filter_toObj, List.length_map]; rfl
  | enumT tag v fs =>
    rw [toValue_enumT, Value.toObj]
    refine ⟨rfl, rfl, rfl, ?_, rfl, fun _ => rfl, by simp [Obj.namedIter, Obj.allNamed],
      takeWhile_toValue_at, by simp [Obj.entries]⟩
    simp only [Obj.fieldsLen, filter_toObj, List.length_map]; rfl
  | tuple tag fs =>
    have e := OK.tuple_vis hO hx
    rw [Obj.toValue, Value.toObj]
    have ht := takeWhile_toValue_at (fs := fs)
    rw [e] at ht
    refine ⟨rfl, rfl, rfl, ?_, rfl, fun _ => rfl, by simp [Obj.namedIter, Obj.allNamed], ht, by simp [Obj.entries]⟩
    simp only [Obj.fieldsLen, filter_toObj, List.length_map]
    exact congrArg List.length e.symm
  | enumU tag v =>
    rw [Obj.toValue, Value.toObj]
    exact ⟨rfl, rfl, rfl, rfl, rfl, fun _ => rfl, rfl, by simp [Obj.posIter], by simp [Obj.entries]⟩
  | vec t xs =>
    rw [Obj.toValue, Value.toObj]
    exact ⟨rfl, rfl, rfl, by simp [Obj.fieldsLen], rfl, fun _ => rfl, rfl,
      by intro i y h; simpa [Obj.posIter] using ⟨y, h, rfl⟩, by simp [Obj.entries]⟩
  | map kt vt kvs =>
    obtain ⟨h1, h2, h3⟩ := OK.map_inv hO hx
    have hp := bmCollect_perm (map_value_keys hO hK h1 h2)
    rw [Obj.toValue, Value.toObj]
    refine ⟨rfl, rfl, rfl, ?_, rfl, fun _ => rfl, rfl, by simp [Obj.posIter], ?_⟩
    · simp only [Obj.fieldsLen, List.length_map]
      rw [hp.length_eq, List.length_map]
    · intro p
      simp only [Obj.entries, List.mem_map]
      constructor
      · rintro ⟨a, ha, rfl⟩
        obtain ⟨q, hq, rfl⟩ := List.mem_map.mp (hp.mem_iff.mp ha)
        exact ⟨q, hq, rfl⟩
      · rintro ⟨q, hq, rfl⟩
        exact ⟨_, hp.mem_iff.mpr (List.mem_map.mpr ⟨q, hq, rfl⟩), rfl⟩

theorem kind_array {x : Obj} : x.kind = .array ↔ ∃ t xs, x = .array t xs := by
  cases x <;> simp [Obj.kind]

theorem not_array_kind {x : Obj} (h : ∀ t xs, x ≠ .array t xs) : x.kind ≠ .array := by
  intro h'
  obtain ⟨t, xs, rfl⟩ := kind_array.mp h'
  exact h t xs rfl

/-- Looking an entry of a map up in the map's value. -/
theorem mapGet_toValue {E : Env} (hD : DeclsOK E) (hO : OrdLaws E) (hK : KeysShown E) {kt vt : Ty}
    {kvs : List (Obj × Obj)} (h : (Obj.map kt vt kvs).OK E) {p : Obj × Obj} (hp : p ∈ kvs) :
    (Obj.map kt vt kvs).toValue.toObj.mapGet E p.1 = some p.2.toValue.toObj := by
  obtain ⟨h1, h2, h3⟩ := OK.map_inv hO h
  have v := toValue_viewAny hD hO hK h (by simp [Obj.kind])
  have hw : (Obj.map kt vt kvs).toValue.toObj.OK E := h.toValue_wf.ok
  have hm := (v.entries (p.1.toValue.toObj, p.2.toValue.toObj)).mpr ⟨p, hp, rfl⟩
  rw [Obj.toValue, Value.toObj] at hw hm ⊢
  refine (mapGet_iff hO hw ⟨_, h2 p hp⟩).mpr ⟨_, hm, p.1.toValue.toObj, fromReflect_value .., ?_⟩
  rw [hO.value _ _ (h2 p hp).toValue_wf (h2 p hp).toValue_wf, Value.cmp_self]

/-- Looking an entry of the map's value up in the map. -/
theorem mapGet_of_value_iff {E : Env} (hD : DeclsOK E) (hO : OrdLaws E) (hK : KeysShown E) {kt vt : Ty}
    {kvs : List (Obj × Obj)} (h : (Obj.map kt vt kvs).OK E) {p : Obj × Obj} (hp : p ∈ kvs) {y : Obj} :
    (Obj.map kt vt kvs).mapGet E p.1.toValue.toObj = some y ↔ p.1.NoGaps ∧ y = p.2 := by
  obtain ⟨h1, h2, h3⟩ := OK.map_inv hO h
  have key : p.1.NoGaps → (Obj.map kt vt kvs).mapGet E p.1.toValue.toObj = some p.2 := by
    intro hn
    refine (mapGet_iff hO h (h2 p hp).toValue_wf.ok).mpr
      ⟨p.1, hp, p.1.reset, roundtrip_noGaps hD hO hK (h2 p hp) hn, ?_⟩
    exact hK kt _ _ ((h2 p hp).reset hO hK) (h2 p hp) (by rw [toValue_reset, Value.cmp_self])
  constructor
  · intro hg
    obtain ⟨_, _, k, hk, _⟩ := (mapGet_iff hO h (h2 p hp).toValue_wf.ok).mp hg
    have hn := noGaps_of_roundtrip hD hO hK (h2 p hp) (by rw [hk]; rfl)
    rw [key hn] at hg
    exact ⟨hn, (Option.some.inj hg).symm⟩
  · rintro ⟨hn, rfl⟩
    exact key hn

theorem reflectEq_toValue_iff {E : Env} (hD : DeclsOK E) (hO : OrdLaws E) (hK : KeysShown E)
    {x : Obj} (hx : x.OK E) : reflectEq E x x.toValue.toObj = some true ↔ x.EqualsItsValue := by
  induction x using Obj.ind with
  | h x ih =>
    have ih : ∀ y ∈ x.parts, (reflectEq E y y.toValue.toObj = some true ↔ y.EqualsItsValue) :=
      fun y hy => ih y (Obj.parts_size hy) (hx.parts hy)
    constructor
    · intro h
      have hna : ∀ t xs, x ≠ .array t xs := by
        rintro t xs rfl
        rw [(reflectEq_array_toValue t xs).1] at h; cases h
      have v := toValue_viewAny hD hO hK hx (not_array_kind hna)
      have hb := (reflectEq_iff _ _).mp h
      refine .mk x ⟨fun s hs => (Scalar.eqv_self_iff s).mp (hb.scalar s s hs (v.scalar ▸ hs)), hna⟩ ?_
      intro y hy
      rcases mem_walked.mp hy with ⟨p, hp, rfl⟩ | hy | ⟨p, hp, rfl⟩
      · obtain ⟨y, hy, hr⟩ := hb.named p hp
        rw [v.field, namedIter_field hD hO hx hp] at hy
        cases hy
        exact (ih _ (Obj.namedIter_parts hx.dynVis hp)).mp hr
      · obtain ⟨i, hi⟩ := List.getElem?_of_mem hy
        exact (ih _ (Obj.posIter_parts hy)).mp (hb.pos i _ _ hi (v.pos i _ hi))
      · obtain ⟨y, hy, hr⟩ := hb.entries p hp
        obtain ⟨kt, vt, kvs, rfl⟩ := entries_isMap hp
        rw [mapGet_toValue hD hO hK hx hp] at hy
        cases hy
        exact (ih _ (map_snd_parts hp _ _)).mp hr
    · rintro ⟨_, ⟨hn, hna⟩, hd⟩
      have v := toValue_viewAny hD hO hK hx (not_array_kind hna)
      rw [reflectEq_iff]
      refine ⟨v.kind.symm, ?_, v.vname.symm, v.vkind.symm, v.len.symm, ?_, ?_, ?_, ?_⟩
      · rw [Ne, kind_cases, hx.not_hidden]; simp
      · intro s s' hs hs'
        rw [v.scalar, hs] at hs'; cases hs'
        exact Scalar.eqv_refl (hn s hs)
      · intro p hp
        exact ⟨_, by rw [v.field, namedIter_field hD hO hx hp]; rfl,
          (ih _ (Obj.namedIter_parts hx.dynVis hp)).mpr
            (hd _ (mem_walked.mpr (.inl ⟨p, hp, rfl⟩)))⟩
      · intro i y z hy hz
        rw [v.pos i y hy] at hz; cases hz
        have hm := List.mem_of_getElem? hy
        exact (ih _ (Obj.posIter_parts hm)).mpr (hd _ (mem_walked.mpr (.inr (.inl hm))))
      · intro p hp
        have hw := hd _ (mem_walked.mpr (.inr (.inr ⟨p, hp, rfl⟩)))
        obtain ⟨kt, vt, kvs, rfl⟩ := entries_isMap hp
        exact ⟨_, mapGet_toValue hD hO hK hx hp, (ih _ (map_snd_parts hp _ _)).mpr hw⟩

theorem toValue_reflectEq_iff {E : Env} (hD : DeclsOK E) (hO : OrdLaws E) (hK : KeysShown E)
    {x : Obj} (hx : x.OK E) : reflectEq E x.toValue.toObj x = some true ↔ x.ItsValueEquals := by
  induction x using Obj.ind with
  | h x ih =>
    have ih : ∀ y ∈ x.parts, (reflectEq E y.toValue.toObj y = some true ↔ y.ItsValueEquals) :=
      fun y hy => ih y (Obj.parts_size hy) (hx.parts hy)
    constructor
    · intro h
      have hna : ∀ t xs, x ≠ .array t xs := by
        rintro t xs rfl
        rw [(reflectEq_array_toValue t xs).2] at h; cases h
      have v := toValue_viewAny hD hO hK hx (not_array_kind hna)
      have hb := (reflectEq_iff _ _).mp h
      refine .mk x ⟨fun s hs => (Scalar.eqv_self_iff s).mp (hb.scalar s s (v.scalar ▸ hs) hs), hna,
        ?_⟩ ?_
      · rintro kt vt kvs rfl p hp
        obtain ⟨y, hy, _⟩ := hb.entries _ ((v.entries _).mpr ⟨p, hp, rfl⟩)
        exact ((mapGet_of_value_iff hD hO hK hx hp).mp hy).1
      intro y hy
      rcases mem_walkedAll.mp hy with ⟨p, hp, rfl⟩ | hy | ⟨p, hp, rfl⟩
      · obtain ⟨y, hy, hr⟩ := hb.named (p.1, p.2.toValue.toObj)
          (by rw [v.named]; exact List.mem_map.mpr ⟨p, hp, rfl⟩)
        rw [allNamed_field hD hO hx hp] at hy
        cases hy
        exact (ih _ (allNamed_parts hx.dynVis hp)).mp hr
      · obtain ⟨i, hi⟩ := List.getElem?_of_mem hy
        exact (ih _ (Obj.posIter_parts hy)).mp (hb.pos i _ _ (v.pos i _ hi) hi)
      · obtain ⟨y, hy, hr⟩ := hb.entries _ ((v.entries _).mpr ⟨p, hp, rfl⟩)
        obtain ⟨kt, vt, kvs, rfl⟩ := entries_isMap hp
        obtain ⟨_, rfl⟩ := (mapGet_of_value_iff hD hO hK hx hp).mp hy
        exact (ih _ (map_snd_parts hp _ _)).mp hr
    · rintro ⟨_, ⟨hn, hna, hk⟩, hd⟩
      have v := toValue_viewAny hD hO hK hx (not_array_kind hna)
      rw [reflectEq_iff]
      refine ⟨v.kind, ?_, v.vname, v.vkind, v.len, ?_, ?_, ?_, ?_⟩
      · rw [v.kind, Ne, kind_cases, hx.not_hidden]; simp
      · intro s s' hs hs'
        rw [v.scalar, hs'] at hs; cases hs
        exact Scalar.eqv_refl (hn s hs')
      · intro p hp
        rw [v.named] at hp
        obtain ⟨q, hq, rfl⟩ := List.mem_map.mp hp
        exact ⟨q.2, allNamed_field hD hO hx hq, (ih _ (allNamed_parts hx.dynVis hq)).mpr
            (hd _ (mem_walkedAll.mpr (.inl ⟨q, hq, rfl⟩)))⟩
      · intro i y z hy hz
        rw [v.pos i z hz] at hy; cases hy
        have hm := List.mem_of_getElem? hz
        exact (ih _ (Obj.posIter_parts hm)).mpr (hd _ (mem_walkedAll.mpr (.inr (.inl hm))))
      · intro p hp
        obtain ⟨q, hq, rfl⟩ := (v.entries p).mp hp
        have hw := hd _ (mem_walkedAll.mpr (.inr (.inr ⟨q, hq, rfl⟩)))
        obtain ⟨kt, vt, kvs, rfl⟩ := entries_isMap hq
        exact ⟨q.2, (mapGet_of_value_iff hD hO hK hx hq).mpr ⟨hk _ _ _ rfl q hq, rfl⟩,
          (ih _ (map_snd_parts hq _ _)).mpr hw⟩

end Mirror
