import Verif.Model.Meta
import Verif.Props.Extract
import Verif.Props.RoundTrip
import Verif.Lemmas.ReflectEq

set_option linter.unusedSimpArgs false

/-!
# Metadata and docs (C57)

Attributes are given as written in the source (`RawAttr`).
-/

namespace Mirror

variable {E : Env}

/-! ## Lemmas -/

theorem strGet_iff {α} {l : List (String × α)} (h : (l.map (·.1)).Nodup) {k : String} {v : α} :
    bmGet strCmp k (bmOfList strCmp l) = some v ↔ (k, v) ∈ l := by
  rw [bmGet_iff strCmpOn (fun _ _ => trivial) (bmOfList_sorted strCmpOn fun _ _ => trivial) trivial]
  have hp := bmOfList_str_perm h
  constructor
  · rintro ⟨k', hm, he⟩
    rw [strCmp_eq_iff] at he
    subst he
    exact hp.mem_iff.mp hm
  · intro hm
    exact ⟨k, hp.mem_iff.mpr hm, by rw [strCmp_eq_iff]⟩

theorem strGet_none_iff {α} {l : List (String × α)} {k : String} :
    bmGet strCmp k l = none ↔ k ∉ l.map (·.1) := by
  induction l with
  | nil => simp [bmGet]
  | cons p r ih =>
    obtain ⟨k', v⟩ := p
    simp only [bmGet, List.map_cons, List.mem_cons, not_or]
    split
    · next h => rw [strCmp_eq_iff] at h; simp [h]
    · next h => rw [ih]; rw [strCmp_eq_iff] at h; simp [h]

theorem parsePairs_iff : ∀ (l m : List (String × Obj)), BMSorted strCmp m → ∀ r,
    parsePairs m l = some r ↔ ((m.map (·.1)) ++ l.map (·.1)).Nodup ∧
      r = l.foldl (fun m p => bmInsert strCmp p.1 p.2 m) m
  | [], m, hm, r => by
    simp only [parsePairs, Option.some.injEq, List.map_nil, List.append_nil, List.foldl_nil]
    exact ⟨fun h => ⟨strSorted_nodup hm, h.symm⟩, fun h => h.2.symm⟩
  | (k, o) :: l, m, hm, r => by
    simp only [parsePairs]
    cases hg : bmGet strCmp k m with
    | some v =>
      simp only [reduceCtorEq, false_iff, not_and]
      intro hn
      exfalso
      obtain ⟨k', hm', he⟩ := bmGet_mem hg
      rw [strCmp_eq_iff] at he
      subst he
      rw [List.nodup_append] at hn
      exact hn.2.2 k (List.mem_map.mpr ⟨_, hm', rfl⟩) k (by simp) rfl
    | none =>
      have hk := strGet_none_iff.mp hg
      have hs := bmInsert_sorted strCmpOn (k := k) (v := o) (l := m) trivial (fun _ _ => trivial) hm
      simp only
      rw [parsePairs_iff l _ hs r]
      have hperm : (bmInsert strCmp k o m).Perm ((k, o) :: m) :=
        bmInsert_perm (by
          intro p hp he
          rw [strCmp_eq_iff] at he
          exact hk (List.mem_map.mpr ⟨p, hp, he.symm⟩))
      have e : ((bmInsert strCmp k o m).map (·.1) ++ l.map (·.1)).Nodup ↔
          (m.map (·.1) ++ ((k, o) :: l).map (·.1)).Nodup := by
        refine List.Perm.nodup_iff ?_
        refine ((hperm.map (·.1)).append_right _).trans ?_
        simp only [List.map_cons, List.cons_append]
        exact List.perm_middle.symm
      rw [e]
      rfl

/-! ## C57 -/

/-- C57. The attributes of an item, variant or field are accepted exactly if there is at most one
`#[reflect(..)]` and no key is given twice in `meta(..)`. -/
theorem C57_accepted_iff (attrs : List RawAttr) :
    (parseAttrs attrs).isSome ↔
      (∀ l, RawAttr.reflectMeta l ∈ attrs → (l.map (·.1)).Nodup) ∧
      (attrs.countP fun a => match a with | .reflectMeta _ => true | _ => false) ≤ 1 := by
  have hmem : ∀ l, RawAttr.reflectMeta l ∈ attrs ↔
      l ∈ attrs.filterMap (fun a => match a with | .reflectMeta l => some l | _ => none) := by
    intro l
    simp only [List.mem_filterMap]
    constructor
    · intro h; exact ⟨_, h, rfl⟩
    · rintro ⟨a, ha, he⟩
      cases a with
      | reflectMeta l' => simp only [Option.some.injEq] at he; subst he; exact ha
      | doc _ => simp at he
      | other => simp at he
  have hcount : (attrs.countP fun a => match a with | .reflectMeta _ => true | _ => false) =
      (attrs.filterMap (fun a => match a with | .reflectMeta l => some l | _ => none)).length := by
    clear hmem
    induction attrs with
    | nil => rfl
    | cons a r ih => cases a <;> simp [List.countP_cons, ih]
  rw [hcount]
  simp only [hmem]
  simp only [parseAttrs]
  generalize attrs.filterMap (fun a => match a with | .reflectMeta l => some l | _ => none) = L
  match L with
  | [] => simp
  | [l] =>
    have := parsePairs_iff l [] List.Pairwise.nil
    simp only [List.mem_singleton, List.map_nil, List.nil_append] at this ⊢
    simp only [forall_eq, List.length_singleton, le_refl, and_true]
    cases hp : parsePairs [] l with
    | none =>
      simp only [Option.map_none, Option.isSome_none, Bool.false_eq_true, false_iff]
      intro hn
      have := (this _).mpr ⟨hn, rfl⟩
      rw [hp] at this
      cases this
    | some r =>
      simp only [Option.map_some, Option.isSome_some, true_iff]
      exact ((this r).mp hp).1
  | _ :: _ :: _ => simp

/-- C57. What is stored for accepted attributes: under each key given in `meta(..)` the `to_value` of the
expression, nothing under other keys, and the doc lines in order. -/
theorem C57_stored {attrs : List RawAttr} {a : Attrs} (h : parseAttrs attrs = some a) :
    (∀ key v, a.ann.meta key = some v ↔
      ∃ l o, RawAttr.reflectMeta l ∈ attrs ∧ (key, o) ∈ l ∧ v = o.toValue) ∧
    a.ann.docs = attrs.filterMap fun x => match x with | .doc l => some l | _ => none := by
  have hmem : ∀ l, RawAttr.reflectMeta l ∈ attrs ↔
      l ∈ attrs.filterMap (fun a => match a with | .reflectMeta l => some l | _ => none) := by
    intro l
    simp only [List.mem_filterMap]
    constructor
    · intro h; exact ⟨_, h, rfl⟩
    · rintro ⟨a, ha, he⟩
      cases a with
      | reflectMeta l' => simp only [Option.some.injEq] at he; subst he; exact ha
      | doc _ => simp at he
      | other => simp at he
  simp only [hmem]
  simp only [parseAttrs] at h
  revert h
  generalize attrs.filterMap (fun a => match a with | .reflectMeta l => some l | _ => none) = L
  intro h
  match L with
  | [] =>
    simp only [Option.some.injEq] at h
    subst h
    refine ⟨?_, rfl⟩
    intro key v
    simp [Attrs.ann, Ann.meta, mapMetadata, tokenizeMeta, bmOfList, bmGet]
  | [l] =>
    simp only [Option.map_eq_some_iff] at h
    obtain ⟨m, hm, rfl⟩ := h
    refine ⟨?_, rfl⟩
    intro key v
    obtain ⟨hn, hr⟩ := (parsePairs_iff l [] List.Pairwise.nil m).mp hm
    simp only [List.map_nil, List.nil_append] at hn
    have hm' : m = bmOfList strCmp l := hr
    have hmn : (m.map (·.1)).Nodup := by
      rw [hm']; exact ((bmOfList_str_perm hn).map (·.1)).nodup_iff.mpr hn
    have e1 : ((m.map fun p => (p.1, p.2.toValue)).map (·.1)).Nodup := by
      rw [List.map_map]; exact hmn
    have e2 : ((tokenizeMeta m).map (·.1)).Nodup :=
      ((bmOfList_str_perm e1).map (·.1)).nodup_iff.mpr e1
    simp only [Attrs.ann, Ann.meta, mapMetadata]
    rw [strGet_iff (by rw [List.map_map]; exact e2)]
    simp only [List.mem_singleton]
    constructor
    · intro hk
      obtain ⟨p, hp, he⟩ := List.mem_map.mp hk
      simp only [Prod.mk.injEq] at he
      obtain ⟨rfl, rfl⟩ := he
      have := (bmOfList_str_perm e1).mem_iff.mp hp
      obtain ⟨q, hq, he⟩ := List.mem_map.mp this
      rw [hm'] at hq
      exact ⟨l, q.2, rfl, by
        have := (bmOfList_str_perm hn).mem_iff.mp hq
        rw [← he]; exact this, by rw [← he]⟩
    · rintro ⟨l', o, rfl, ho, rfl⟩
      refine List.mem_map.mpr ⟨(key, o.toValue), ?_, rfl⟩
      refine (bmOfList_str_perm e1).mem_iff.mpr (List.mem_map.mpr ⟨(key, o), ?_, rfl⟩)
      rw [hm']
      exact (bmOfList_str_perm hn).mem_iff.mpr ho
  | _ :: _ :: _ => simp at h

/-- C57. The metadata of a declared type is what its attributes say, its docs are its doc lines. -/
theorem C57_type (hD : DeclsOK E) {fuel t d} (h : describe E fuel t = some d) {n : String} {node}
    (hi : Nav d.graph d.root (.named n)) (hn : d.graph.node (.named n) = some node) (A : AttrEnv)
    {attrs : List RawAttr} (ha : parseAttrs attrs = some (A.item n)) :
    (∀ key v, typeMeta A (.named n) node key = some v ↔
      ∃ l o, RawAttr.reflectMeta l ∈ attrs ∧ (key, o) ∈ l ∧ v = o.toValue) ∧
    typeDocs A (.named n) node = attrs.filterMap fun x => match x with | .doc l => some l | _ => none := by
  obtain ⟨h1, h2⟩ := C57_stored ha
  have hdesc := (descriptor_describes hD h hi hn).1
  cases hdesc with
  | struct _ fds c names fields => exact ⟨h1, h2⟩
  | tupleStruct _ fds c => exact ⟨h1, h2⟩
  | enum _ vds c vs => exact ⟨h1, h2⟩

/-- C57. The metadata of a variant found through `variants()` or `variant(name)` is what its attributes say,
its docs are its doc lines. -/
theorem C57_variant (A : AttrEnv) {n : String} {v : VariantNode} {attrs : List RawAttr}
    (ha : parseAttrs attrs = some (A.variant n v.name)) :
    (∀ key w, variantMeta A n v key = some w ↔
      ∃ l o, RawAttr.reflectMeta l ∈ attrs ∧ (key, o) ∈ l ∧ w = o.toValue) ∧
    variantDocs A n v = attrs.filterMap fun x => match x with | .doc l => some l | _ => none :=
  C57_stored ha

/-- C57. A type without a declaration of its own has no metadata and no docs. -/
theorem C57_other_types (A : AttrEnv) {id : Ty} (hid : ∀ n, id ≠ .named n) (node : TypeNode) (key : String) :
    typeMeta A id node key = none ∧ typeDocs A id node = [] := by
  have : A.ann id = .empty := by
    cases id with
    | named n => exact absurd rfl (hid n)
    | _ => rfl
  cases node <;> simp [typeMeta, typeDocs, this, Ann.meta, Ann.empty, bmGet]

/-- C57. `get_meta::<T>(key)` returns the very object that the attribute gives, if it has type `T`. -/
theorem C57_get_meta (hD : DeclsOK E) (hO : OrdLaws E) (hK : KeysShown E) (hN : NoSkips E)
    {attrs : List RawAttr} {a : Attrs} (h : parseAttrs attrs = some a) {l key o} {T : Ty}
    (hl : RawAttr.reflectMeta l ∈ attrs) (ho : (key, o) ∈ l) (hT : HasTy E T o) :
    getMeta E T (a.ann.meta key) = some o := by
  rw [((C57_stored h).1 key o.toValue).mpr ⟨l, o, hl, ho, rfl⟩]
  exact C01_roundtrip hD hO hK hN hT

/-- C57. A key that is not given has no metadata of any type. -/
theorem C57_get_meta_none {attrs : List RawAttr} {a : Attrs} (h : parseAttrs attrs = some a) {key : String}
    (hk : ∀ l o, RawAttr.reflectMeta l ∈ attrs → (key, o) ∉ l) (T : Ty) :
    getMeta E T (a.ann.meta key) = none := by
  cases hm : a.ann.meta key with
  | none => rfl
  | some v =>
    obtain ⟨l, o, hl, ho, -⟩ := ((C57_stored h).1 key v).mp hm
    exact absurd ho (hk l o hl)

/-- C57. A field of a struct carries the metadata and docs of the declared field of that name; asking for a
skipped field finds none. -/
theorem C57_struct_fields {fds : List FieldDef} (hn : (fds.map (·.name)).Nodup) {as : List Attrs}
    (hl : as.length = fds.length) {i : Nat} {fd : FieldDef} {a : Attrs} (hi : fds[i]? = some fd)
    (ha : as[i]? = some a) :
    fieldAnn (structAnns fds as) fd.name = if fd.skip then none else some a.ann := by
  have hv : ((visDefs fds).map (·.name)).Nodup := hn.sublist (List.filter_sublist.map _)
  have hdb : namedFieldAnn fds as fd.name = a.ann := by
    have hz : (((fds.map (·.name)).zip as).map (·.1)).Nodup := by
      rw [List.map_fst_zip (by simp [hl])]; exact hn
    have hm : (fd.name, a) ∈ (fds.map (·.name)).zip as := by
      refine List.mem_of_getElem? (i := i) ?_
      rw [List.getElem?_zip_eq_some]
      exact ⟨by simp [hi], ha⟩
    simp only [namedFieldAnn, (strGet_iff hz).mpr hm]
  have hnod : (((visDefs fds).map fun fd => (fd.name, namedFieldAnn fds as fd.name)).map (·.1)).Nodup := by
    rw [List.map_map]; exact hv
  simp only [fieldAnn, structAnns]
  split
  · next hs =>
    rw [strGet_none_iff]
    intro hm
    have := ((bmOfList_str_perm hnod).map (·.1)).mem_iff.mp hm
    rw [List.map_map] at this
    obtain ⟨fd', hfd', he⟩ := List.mem_map.mp this
    simp only [visDefs, List.mem_filter] at hfd'
    have : fd' = fd := List.inj_on_of_nodup_map hn hfd'.1 (List.mem_of_getElem? hi) he
    subst this
    simp [hs] at hfd'
  · next hs =>
    rw [strGet_iff hnod, ← hdb]
    exact List.mem_map.mpr ⟨fd, List.mem_filter.mpr ⟨List.mem_of_getElem? hi, by simp [hs]⟩, rfl⟩

/-- C57. The same for struct-like variants. -/
theorem C57_variant_fields {fds : List FieldDef} (hn : (fds.map (·.name)).Nodup) {as : List Attrs}
    (hl : as.length = fds.length) {i : Nat} {fd : FieldDef} {a : Attrs} (hi : fds[i]? = some fd)
    (ha : as[i]? = some a) :
    fieldAnn (variantNamedAnns fds as) fd.name = if fd.skip then none else some a.ann := by
  have hsub : ((((fds.zip as).filter fun p => !p.1.skip).map fun p => (p.1.name, p.2.ann)).map (·.1)).Sublist
      (fds.map (·.name)) := by
    have : fds.map (·.name) = (fds.zip as).map fun p => p.1.name := by
      conv_lhs => rw [← List.map_fst_zip (l₁ := fds) (l₂ := as) (by omega)]
      rw [List.map_map]; rfl
    rw [this, List.map_map]
    exact List.filter_sublist.map _
  have hnod := hn.sublist hsub
  have hm : (fd, a) ∈ fds.zip as := by
    refine List.mem_of_getElem? (i := i) ?_
    rw [List.getElem?_zip_eq_some]
    exact ⟨hi, ha⟩
  simp only [fieldAnn, variantNamedAnns]
  split
  · next hs =>
    rw [strGet_none_iff]
    intro hm'
    have := ((bmOfList_str_perm hnod).map (·.1)).mem_iff.mp hm'
    rw [List.map_map] at this
    obtain ⟨p, hp, he⟩ := List.mem_map.mp this
    obtain ⟨hp1, hp2⟩ := List.mem_filter.mp hp
    have : p.1 = fd := List.inj_on_of_nodup_map hn (List.of_mem_zip hp1).1 (List.mem_of_getElem? hi) he
    rw [this] at hp2
    simp [hs] at hp2
  · next hs =>
    rw [strGet_iff hnod]
    exact List.mem_map.mpr ⟨(fd, a), List.mem_filter.mpr ⟨hm, by simp [hs]⟩, rfl⟩

theorem tupleAnns_eq {as : List Attrs} : ∀ (fds : List FieldDef) (k : Nat), as.length = k + fds.length →
    (((fds.zipIdx k).filter fun p => !p.1.skip).map fun p => posFieldAnn as p.2) = variantTupleAnns fds (as.drop k)
  | [], k, _ => by simp [variantTupleAnns]
  | fd :: fds, k, h => by
    have hk : k < as.length := by simp at h; omega
    rw [List.drop_eq_getElem_cons hk]
    have ih := tupleAnns_eq (as := as) fds (k + 1) (by simp at h ⊢; omega)
    simp only [List.zipIdx_cons, variantTupleAnns, List.zip_cons_cons, List.filter_cons] at ih ⊢
    split
    · rw [List.map_cons, List.map_cons, ih]; simp only [posFieldAnn, List.getElem?_eq_getElem hk]
    · exact ih

/-- C57. Positional fields: the `j`-th field of a tuple struct or tuple-like variant in type information
carries the metadata and docs of the `j`-th declared field that is not skipped. -/
theorem C57_positional_fields {fds : List FieldDef} {as : List Attrs} (hl : as.length = fds.length) {i : Nat}
    {fd : FieldDef} {a : Attrs} (hi : fds[i]? = some fd) (ha : as[i]? = some a) (hs : fd.skip = false) :
    (tupleAnns fds as)[((fds.take i).filter fun fd => !fd.skip).length]? = some a.ann ∧
    (variantTupleAnns fds as)[((fds.take i).filter fun fd => !fd.skip).length]? = some a.ann ∧
    (tupleAnns fds as).length = (fds.filter fun fd => !fd.skip).length ∧
    (variantTupleAnns fds as).length = (fds.filter fun fd => !fd.skip).length := by
  have e : tupleAnns fds as = variantTupleAnns fds as := by
    have := tupleAnns_eq (as := as) fds 0 (by omega)
    simpa [tupleAnns] using this
  rw [e]
  have hlen : (variantTupleAnns fds as).length = (fds.filter fun fd => !fd.skip).length := by
    clear hi ha e
    induction fds generalizing as with
    | nil => simp [variantTupleAnns]
    | cons fd fds ih =>
      cases as with
      | nil => simp at hl
      | cons a as =>
        have := ih (as := as) (by simpa using hl)
        simp only [variantTupleAnns, List.zip_cons_cons, List.filter_cons, List.length_map] at this ⊢
        split <;> simp [this]
  have hget : (variantTupleAnns fds as)[((fds.take i).filter fun fd => !fd.skip).length]? = some a.ann := by
    clear e hlen
    induction fds generalizing as i with
    | nil => simp at hi
    | cons f fds ih =>
      cases as with
      | nil => simp at hl
      | cons b as =>
        cases i with
        | zero =>
          simp only [List.getElem?_cons_zero, Option.some.injEq] at hi ha
          subst hi ha
          simp [variantTupleAnns, hs]
        | succ i =>
          simp only [List.getElem?_cons_succ] at hi ha
          have := ih (as := as) (i := i) (by simpa using hl) hi ha
          simp only [variantTupleAnns, List.take_succ_cons, List.zip_cons_cons, List.filter_cons] at this ⊢
          split <;> simp [this]
  exact ⟨hget, hget, hlen, hlen⟩

/-- C57, for types. A path to a type leads to the metadata and docs of that type. -/
theorem C57_type_at_partial (A : AttrEnv) (id : Ty) (node : TypeNode) (key : String) :
    (TypeAt.ty id node).meta A key = typeMeta A id node key ∧
    (TypeAt.ty id node).docs A = typeDocs A id node := by
  cases node <;> exact ⟨rfl, rfl⟩

/-- C57 fails for variants reached by a path: whatever metadata and docs the variant was declared with,
`type_at` followed by `meta` or `docs` shows none. -/
theorem C57_type_at_variant_fails (A : AttrEnv) {d : TypeDescriptor} {p : KeyPath} {v : VariantNode}
    (h : d.typeAt p = some (some (.variant v))) :
    ∀ ta, d.typeAt p = some (some ta) → (∀ key, ta.meta A key = none) ∧ ta.docs A = [] := by
  intro ta hta
  rw [h] at hta
  simp only [Option.some.injEq] at hta
  subst hta
  exact ⟨fun _ => rfl, rfl⟩

/-- Metadata on `Opt::Some`: present on the variant, absent on what `type_at("Some" variant)` returns. -/
example : ∃ (A : AttrEnv) (d : TypeDescriptor) (v : VariantNode),
    describe demoEnv 10 (.named "Opt") = some d ∧
    d.typeAt [.variant "Some"] = some (some (.variant v)) ∧
    variantMeta A "Opt" v "min" = some (.scalar (.int .u8 3)) ∧ variantDocs A "Opt" v = [" present"] ∧
    (TypeAt.variant v).meta A "min" = none ∧ (TypeAt.variant v).docs A = [] := by
  refine ⟨⟨fun _ => ⟨[], []⟩, fun _ _ => ⟨[("min", .scalar (.int .u8 3))], [" present"]⟩⟩, _,
    .tuple "Some" [.named "Point"], rfl, ?_, ?_, rfl, rfl, rfl⟩
  · rfl
  · simp [variantMeta, Attrs.ann, Ann.meta, mapMetadata, tokenizeMeta, bmOfList, bmInsert, bmGet,
      strCmp_eq_iff, Obj.toValue]

/-- Attributes with two keys, docs and something else are accepted; a repeated key is not. -/
example : (parseAttrs [.doc " a", .reflectMeta [("k", .scalar (.int .u8 1)), ("a", .scalar (.bool true))],
      .other, .doc " b"]).isSome ∧
    ¬ (parseAttrs [.reflectMeta [("k", .scalar (.int .u8 1)), ("k", .scalar (.bool true))]]).isSome := by
  rw [C57_accepted_iff, C57_accepted_iff]
  refine ⟨⟨?_, by decide⟩, ?_⟩
  · intro l hl
    simp at hl
    subst hl
    decide
  · rintro ⟨h, -⟩
    have := h _ (by simp; rfl)
    revert this
    decide

end Mirror
