import Verif.Lemmas.Views
import Verif.Lemmas.Demo
import Verif.Props.TypeInfo
import Verif.Props.TypePath
import Verif.Props.ReflectEq

set_option linter.unusedSimpArgs false

/-!
# Type information and values (C37), skipped fields (C49)
-/

namespace Mirror

variable {E : Env}

/-! ## C37: type information matches the values -/

/-- C37, exactly. Wherever navigation in a descriptor arrives and finds a type that is not opaque, a value of
that type is of the kind the node says and shows, through all accessors, exactly what the node lists, if and
only if no skipped field of it stands before one that is not skipped. (A gap counts only in a tuple struct or
an enum; see `Obj.GapFree`.) -/
theorem type_info_fits_iff (hD : DeclsOK E) {fuel t d}
    (h : describe E fuel t = some d) {i : Ty} {node : TypeNode} (hi : Nav d.graph d.root i)
    (hn : d.graph.node i = some node) (ho : node ≠ .opaque) {x : Obj} (hx : HasTy E i x) :
    Fits E node x ↔ x.GapFree :=
  ⟨gapFree_of_fits, fun hg =>
    (fits_of_describes hD (descriptor_describes hD h hi hn).1 hx hg).resolve_right ho⟩

/-- C37. Wherever navigation in a descriptor arrives, values of that type are of the kind the node says
and show, through all accessors, exactly what the node lists. Missing for the full property: skipped
fields in front of reflected ones in tuple structs and enum variants, for which it fails
(`type_info_fits_iff`, `tuple_struct_type_info_misfits`); opaque nodes list nothing. -/
theorem type_info_fits_partial (hD : DeclsOK E) {fuel t d}
    (h : describe E fuel t = some d) {i : Ty} {node : TypeNode} (hi : Nav d.graph d.root i)
    (hn : d.graph.node i = some node) {x : Obj} (hx : HasTy E i x) (hg : x.GapFree) :
    Fits E node x ∨ node = .opaque :=
  fits_of_describes hD (descriptor_describes hD h hi hn).1 hx hg

/-- C37 at the root. -/
theorem type_info_fits_root_partial (hD : DeclsOK E) {fuel t d}
    (h : describe E fuel t = some d) {x : Obj} (hx : HasTy E t x) (hg : x.GapFree) :
    ∃ node, d.graph.node d.root = some node ∧ (Fits E node x ∨ node = .opaque) := by
  obtain ⟨node, hn⟩ := descriptor_closed hD h .root
  refine ⟨node, hn, type_info_fits_partial hD h .root hn ?_ hg⟩
  rw [descriptor_root hD h]; exact hasTy_unbox.mpr hx

/-- C37 for derived structs, wherever their skipped fields are. -/
theorem struct_type_info_fits (hD : DeclsOK E) {fuel t d} (h : describe E fuel t = some d)
    {n fds c} (hd : E.decl n = some ⟨.struct fds, c⟩) {node : TypeNode}
    (hi : Nav d.graph d.root (.named n)) (hn : d.graph.node (.named n) = some node) {x : Obj}
    (hx : HasTy E (.named n) x) : Fits E node x ∧ node ≠ .opaque := by
  have hdesc := (descriptor_describes hD h hi hn).1
  cases hdesc with
  | struct _ fds' c' names fields hd' hf hl hs =>
    rw [hd] at hd'; cases hd'; exact ⟨fits_struct hd hf hx, by simp⟩
  | tupleStruct _ fds' c' hd' => rw [hd] at hd'; cases hd'
  | enum _ vds c' vs hd' => rw [hd] at hd'; cases hd'

/-- C37 for derived tuple structs, wherever their skipped fields are: kind and number of fields. -/
theorem tuple_struct_type_info_counts (hD : DeclsOK E) {fuel t d} (h : describe E fuel t = some d)
    {n fds c} (hd : E.decl n = some ⟨.tupleStruct fds, c⟩) {node : TypeNode}
    (hi : Nav d.graph d.root (.named n)) (hn : d.graph.node (.named n) = some node) {x : Obj}
    (hx : HasTy E (.named n) x) :
    ∃ fields, node = .tupleStruct fields ∧ x.kind = .tupleStruct ∧ x.fieldsLen = fields.length := by
  have hdesc := (descriptor_describes hD h hi hn).1
  cases hdesc with
  | tupleStruct _ fds' c' hd' =>
    rw [hd] at hd'; cases hd'
    refine ⟨_, rfl, ?_⟩
    cases hx with
    | tupleStruct _ fds' c' fs hd' h1 h2 h3 =>
      rw [hd] at hd'; cases hd'
      refine ⟨rfl, ?_⟩
      simpa [visDefs, Obj.fieldsLen] using (alignPos h1 h2 h3).length_eq
    | struct _ _ _ _ hd' => rw [hd] at hd'; cases hd'
    | enumS _ _ _ _ _ _ hd' => rw [hd] at hd'; cases hd'
    | enumT _ _ _ _ _ _ hd' => rw [hd] at hd'; cases hd'
    | enumU _ _ _ _ hd' => rw [hd] at hd'; cases hd'
  | struct _ fds' c' names fields hd' hf hl hs => rw [hd] at hd'; cases hd'
  | enum _ vds c' vs hd' => rw [hd] at hd'; cases hd'

/-- C37 for derived enums, wherever their skipped fields are: the listed variant of the value's name
exists, is the only one of that name, and has the value's kind, number of fields and named fields. -/
theorem enum_type_info_counts (hD : DeclsOK E) {fuel t d} (h : describe E fuel t = some d)
    {n vds c} (hd : E.decl n = some ⟨.enum vds, c⟩) {node : TypeNode}
    (hi : Nav d.graph d.root (.named n)) (hn : d.graph.node (.named n) = some node) {x : Obj}
    (hx : HasTy E (.named n) x) :
    ∃ vs, node = .enum vs ∧ x.kind = .enum ∧ ∃ v ∈ vs, (∀ w ∈ vs, w.name = v.name → w = v) ∧
      x.variantName = some v.name ∧ v.Counts x := by
  have hdesc := (descriptor_describes hD h hi hn).1
  cases hdesc with
  | struct _ fds' c' names fields hd' hf hl hs => rw [hd] at hd'; cases hd'
  | tupleStruct _ fds' c' hd' => rw [hd] at hd'; cases hd'
  | enum _ vds' c' vs hd' hlen hv =>
    rw [hd] at hd'; cases hd'
    refine ⟨vs, rfl, ?_⟩
    rcases enum_inv hd hx with ⟨vn, fds, fs, hm, rfl, h1, h2, h3⟩ |
        ⟨vn, fds, fs, hm, rfl, h1, h2, h3⟩ | ⟨vn, hm, rfl⟩
    · obtain ⟨v, hvm, hdv, hu⟩ := enum_variant_node hD hd hlen hv hm
      refine ⟨rfl, v, hvm, hu, ?_⟩
      have hal := alignNamed h1 h2 h3
      have hnd := hD.variant_fields n vds c vn fds hd hm
      cases hdv with
      | struct _ _ names fields hf hlen' hs =>
        obtain ⟨hnames, -⟩ := namedTypes_unique hnd hf hlen' hs
        refine ⟨rfl, rfl, ?_, fun m => ?_⟩
        · rw [hnames, List.length_map]; exact hal.length_eq
        · constructor
          · intro hm
            obtain ⟨y, hy⟩ := Option.isSome_iff_exists.mp hm
            obtain ⟨fd, hfd, hn, _⟩ := forall2_lookup hal hy
            rw [(namedType_iff hnd hf hlen' hs).mpr ⟨fd, hfd, hn, rfl⟩]; rfl
          · intro hm
            obtain ⟨u, hu⟩ := Option.isSome_iff_exists.mp hm
            obtain ⟨fd, hfd, rfl, _⟩ := (namedType_iff hnd hf hlen' hs).mp hu
            have : fd.name ∈ (visFields fs).map (·.1) := by
              rw [forall2_names hal]; exact List.mem_map.mpr ⟨fd, hfd, rfl⟩
            cases hl : lookup fd.name (visFields fs) with
            | none => exact absurd this (lookup_none_iff.mp hl)
            | some y => simp [Obj.field, hl]
    · obtain ⟨v, hvm, hdv, hu⟩ := enum_variant_node hD hd hlen hv hm
      refine ⟨rfl, v, hvm, hu, ?_⟩
      cases hdv with
      | tuple =>
        refine ⟨rfl, rfl, ?_⟩
        simpa [visDefs, Obj.fieldsLen] using (alignPos h1 h2 h3).length_eq
    · obtain ⟨v, hvm, hdv, hu⟩ := enum_variant_node hD hd hlen hv hm
      refine ⟨rfl, v, hvm, hu, ?_⟩
      cases hdv with
      | unit => exact ⟨rfl, rfl, rfl⟩

/-- C37 fails for every tuple struct with a skipped field in front of a reflected one: at some index the
type lists a field and no value has one there. -/
theorem tuple_struct_type_info_misfits (hD : DeclsOK E) {fuel t d} (h : describe E fuel t = some d)
    {n fds c} (hd : E.decl n = some ⟨.tupleStruct fds, c⟩) {i j : Nat} {fd fd' : FieldDef}
    (hi : fds[i]? = some fd) (hj : fds[j]? = some fd') (hs : fd.skip = true) (hs' : fd'.skip = false)
    (hij : i < j) (hnav : Nav d.graph d.root (.named n)) :
    ∃ fields k u, d.graph.node (.named n) = some (.tupleStruct fields) ∧ fields[k]? = some u ∧
      ∀ x, HasTy E (.named n) x → x.fieldAt k = none := by
  obtain ⟨node, hn⟩ := descriptor_closed hD h hnav
  have hdesc := (descriptor_describes hD h hnav hn).1
  cases hdesc with
  | tupleStruct _ fds' c' hd' =>
    rw [hd] at hd'; cases hd'
    obtain ⟨k, fk, hk, hks, hmin⟩ : ∃ (k : Nat) (fk : FieldDef), fds[k]? = some fk ∧ fk.skip = true ∧
        ∀ (m : Nat) (fm : FieldDef), m < k → fds[m]? = some fm → fm.skip = false := by
      clear hn hnav hd h hs' hj hij
      induction i using Nat.strong_induction_on generalizing fd with
      | h i ih =>
        by_cases hex : ∃ m fm, m < i ∧ fds[m]? = some fm ∧ fm.skip = true
        · obtain ⟨m, fm, hm, hf, hsk⟩ := hex
          exact ih m hm hf hsk
        · refine ⟨i, fd, hi, hs, fun m fm hm hf => ?_⟩
          cases hk : fm.skip with
          | false => rfl
          | true => exact absurd ⟨m, fm, hm, hf, hk⟩ hex
    have hkj : k < j := by
      rcases Nat.lt_trichotomy k j with hlt | rfl | hgt
      · exact hlt
      · rw [hk] at hj; cases hj; simp [hks] at hs'
      · by_cases hki : k ≤ i
        · omega
        · have := hmin i fd (by omega) hi; simp [this] at hs
    have hlen : k < (fds.filter fun fd => !fd.skip).length := by
      have hsplit : fds = fds.take k ++ fds.drop k := (List.take_append_drop k fds).symm
      rw [hsplit, List.filter_append, List.length_append]
      have h1 : (fds.take k).filter (fun fd => !fd.skip) = fds.take k := by
        rw [List.filter_eq_self]; intro a ha
        obtain ⟨m, hm⟩ := List.getElem?_of_mem ha
        rw [List.getElem?_take] at hm
        split at hm
        · simp [hmin m a (by assumption) hm]
        · cases hm
      have h2 : (fds.take k).length = k := by
        have := (List.getElem?_eq_some_iff.mp hj).1
        simp; omega
      have h3 : 0 < ((fds.drop k).filter fun fd => !fd.skip).length := by
        apply List.length_pos_of_mem (a := fd')
        rw [List.mem_filter]
        refine ⟨?_, by simp [hs']⟩
        apply List.mem_of_getElem? (i := j - k)
        rw [List.getElem?_drop, ← hj]; congr 1; omega
      rw [h1, h2]; omega
    refine ⟨_, k, _, hn, List.getElem?_eq_getElem (by simpa using hlen), ?_⟩
    intro x hx
    cases hx with
    | tupleStruct _ fds' c' fs hd' h1 h2 h3 =>
      rw [hd] at hd'; cases hd'
      have hk' : k < fs.length := by rw [h1]; exact (List.getElem?_eq_some_iff.mp hk).1
      have := h2 k fk _ hk (List.getElem?_eq_getElem hk') hks
      simp [Obj.fieldAt, visAt, List.getElem?_eq_getElem hk', this]
    | struct _ _ _ _ hd' => rw [hd] at hd'; cases hd'
    | enumS _ _ _ _ _ _ hd' => rw [hd] at hd'; cases hd'
    | enumT _ _ _ _ _ _ hd' => rw [hd] at hd'; cases hd'
    | enumU _ _ _ _ hd' => rw [hd] at hd'; cases hd'
  | struct _ fds' c' names fields hd' hf hl hs => rw [hd] at hd'; cases hd'
  | enum _ vds c' vs hd' => rw [hd] at hd'; cases hd'

/-! ## C49: skipped fields are invisible, all others visible -/

/-- C49 for derived structs. All accessors, of the value and of its `to_value`, show exactly the fields
without `skip`, in declaration order; nothing finds a skipped name. -/
theorem struct_skips_hidden (hD : DeclsOK E) {n fds c} (hd : E.decl n = some ⟨.struct fds, c⟩) {x : Obj}
    (hx : HasTy E (.named n) x) :
    (∃ l : List (String × Obj), x.ShowsNamed l ∧ x.toValue.toObj.ShowsNamed (l.map fun p => (p.1, p.2.toValue.toObj)) ∧
      List.Forall₂ (fun p fd => p.1 = fd.name ∧ HasTy E fd.ty p.2) l (fds.filter fun fd => !fd.skip)) ∧
    ∀ fd ∈ fds, fd.skip = true → x.field fd.name = none ∧ x.toValue.toObj.field fd.name = none ∧
      ∀ i, x.nameAt i ≠ some fd.name ∧ x.toValue.toObj.nameAt i ≠ some fd.name := by
  have hnd := hD.struct_names n fds c hd
  cases hx with
  | struct _ fds' c' fs hd' h1 h2 h3 =>
    rw [hd] at hd'; cases hd'
    have hal := alignNamed h1 h2 h3
    have s1 := showsNamed_struct n fs
    have s2 := showsNamed_toValue (x := .struct (.derived n) fs) (by rw [h1]; exact hnd) (.inl rfl)
    refine ⟨⟨visFields fs, s1, s2, hal⟩, fun fd hfd hsk => ?_⟩
    have hno : fd.name ∉ (visFields fs).map (·.1) := by
      rw [forall2_names hal]
      intro hm
      obtain ⟨fd2, hfd2, he⟩ := List.mem_map.mp hm
      have hfd2' := List.mem_filter.mp hfd2
      have := List.inj_on_of_nodup_map hnd hfd2'.1 hfd he
      subst this; simp [hsk] at hfd2'
    refine ⟨lookup_none_iff.mpr hno, ?_, fun i => ⟨?_, ?_⟩⟩
    · rw [s2.field, find_eq_lookup]
      refine lookup_none_iff.mpr ?_
      rw [List.map_map]; exact hno
    · rw [s1.name_at]; intro he
      obtain ⟨p, hp, hpe⟩ := Option.map_eq_some_iff.mp he
      exact hno (List.mem_map.mpr ⟨p, List.mem_of_getElem? hp, hpe⟩)
    · rw [s2.name_at]; intro he
      obtain ⟨p, hp, hpe⟩ := Option.map_eq_some_iff.mp he
      obtain ⟨q, hq, rfl⟩ := List.mem_map.mp (List.mem_of_getElem? hp)
      exact hno (List.mem_map.mpr ⟨q, hq, hpe⟩)
  | tupleStruct _ _ _ _ hd' => rw [hd] at hd'; cases hd'
  | enumS _ _ _ _ _ _ hd' => rw [hd] at hd'; cases hd'
  | enumT _ _ _ _ _ _ hd' => rw [hd] at hd'; cases hd'
  | enumU _ _ _ _ hd' => rw [hd] at hd'; cases hd'

/-- C49 for derived tuple structs. Full for access by index, counts and `to_value`; iteration stops at the
first skipped field, so with a skip in front of a reflected field that field is not iterated over. -/
theorem tuple_struct_skips_hidden_partial {n fds c} (hd : E.decl n = some ⟨.tupleStruct fds, c⟩) {x : Obj}
    (hx : HasTy E (.named n) x) : SkipsAt E fds x := by
  cases hx with
  | tupleStruct _ fds' c' fs hd' h1 h2 h3 =>
    rw [hd] at hd'; cases hd'
    exact skipsAt_of h1 h2 h3 (.inl rfl)
  | struct _ _ _ _ hd' => rw [hd] at hd'; cases hd'
  | enumS _ _ _ _ _ _ hd' => rw [hd] at hd'; cases hd'
  | enumT _ _ _ _ _ _ hd' => rw [hd] at hd'; cases hd'
  | enumU _ _ _ _ hd' => rw [hd] at hd'; cases hd'

/-- C49 for derived enums: the variant the value is in. Full for access by name and by declared index,
counts and `to_value`; iteration stops at the first skipped field. -/
theorem enum_skips_hidden_partial (hD : DeclsOK E) {n vds c} (hd : E.decl n = some ⟨.enum vds, c⟩)
    {x : Obj} (hx : HasTy E (.named n) x) :
    (∃ vn fds, VariantDef.struct vn fds ∈ vds ∧ x.variantName = some vn ∧ SkipsNamed E fds x) ∨
    (∃ vn fds, VariantDef.tuple vn fds ∈ vds ∧ x.variantName = some vn ∧ SkipsAt E fds x) ∨
    (∃ vn, VariantDef.unit vn ∈ vds ∧ x.variantName = some vn ∧ x.fieldsLen = 0) := by
  rcases enum_inv hd hx with ⟨vn, fds, fs, hm, rfl, h1, h2, h3⟩ | ⟨vn, fds, fs, hm, rfl, h1, h2, h3⟩ |
      ⟨vn, hm, rfl⟩
  · refine .inl ⟨vn, fds, hm, rfl, ?_⟩
    have hnd := hD.variant_fields n vds c vn fds hd hm
    have hal := alignNamed h1 h2 h3
    have hfn : (fs.map (·.1)).Nodup := by rw [h1]; exact hnd
    have hlen : fs.length = fds.length := by simpa using congrArg List.length h1
    have get : ∀ {i : Nat} {fd}, fds[i]? = some fd → ∃ p, fs[i]? = some p ∧ p.1 = fd.name := by
      intro i fd h
      have hi : i < fs.length := by rw [hlen]; exact (List.getElem?_eq_some_iff.mp h).1
      refine ⟨_, List.getElem?_eq_getElem hi, ?_⟩
      have e : (fs.map (·.1))[i]? = (fds.map (·.name))[i]? := by rw [h1]
      simpa [h, List.getElem?_eq_getElem hi] using e
    refine ⟨fun i fd h hk => ?_, fun i fd h hk => ?_, fun m hm => ?_, fun i h => ?_, hal.length_eq,
      ⟨fs.takeWhile (fun p => !p.2.isHidden), nextNamed_yields (.inr rfl), ?_⟩,
      ⟨visFields fs, showsNamed_toValue hfn (.inr ⟨_, rfl⟩), hal⟩⟩
    · obtain ⟨p, hp, _⟩ := get h
      have hh := h2 i fd p h hp hk
      refine ⟨lookup_none_iff.mpr ?_, ?_, ?_⟩
      · rw [forall2_names hal]
        intro hm
        obtain ⟨fd2, hfd2, he⟩ := List.mem_map.mp hm
        have hfd2' := List.mem_filter.mp hfd2
        have := List.inj_on_of_nodup_map hnd hfd2'.1 (List.mem_of_getElem? h) he
        subst this; simp [hk] at hfd2'
      · simp [Obj.fieldAt, visAt, hp, hh]
      · simp [Obj.nameAt, hp, hh]
    · obtain ⟨p, hp, hpn⟩ := get h
      have ht := h3 i fd p h hp hk
      refine ⟨by simp [Obj.nameAt, hp, ht.not_hidden, hpn], p.2, ?_, ?_, ht⟩
      · have := lookup_vis_of_idx hfn hp ht.not_hidden
        rw [hpn] at this; exact this
      · simp [Obj.fieldAt, visAt, hp, ht.not_hidden]
    · refine lookup_none_iff.mpr ?_
      rw [forall2_names hal]
      intro hmm
      obtain ⟨fd, hfd, rfl⟩ := List.mem_map.mp hmm
      exact hm (List.mem_map.mpr ⟨fd, (List.mem_filter.mp hfd).1, rfl⟩)
    · have : fs[i]? = none := List.getElem?_eq_none (by omega)
      exact ⟨by simp [Obj.fieldAt, visAt, this], by simp [Obj.nameAt, this]⟩
    · refine takeWhile_forall2 hlen fun i p fd hp h => ?_
      cases hk : fd.skip with
      | true => simp [h2 i fd p h hp hk]
      | false =>
        have := h3 i fd p h hp hk
        obtain ⟨p', hp', hn'⟩ := get h
        rw [hp] at hp'; cases hp'
        exact ⟨by simp [this.not_hidden], fun _ => ⟨hn', this⟩⟩
  · exact .inr (.inl ⟨vn, fds, hm, rfl, skipsAt_of h1 h2 h3 (.inr ⟨_, rfl⟩)⟩)
  · exact .inr (.inr ⟨vn, hm, rfl, rfl⟩)

/-- C49. What skipped fields contain cannot be observed: resetting all of them (at any depth) to defaults
changes neither kind, variant, counts, names nor `to_value`, and what the accessors return differs only
in what is skipped inside. -/
theorem skipped_contents_unobservable (x : Obj) :
    x.reset.kind = x.kind ∧ x.reset.variantName = x.variantName ∧ x.reset.fieldsLen = x.fieldsLen ∧
    (∀ i, x.reset.nameAt i = x.nameAt i) ∧ x.reset.toValue = x.toValue ∧
    (∀ n, x.reset.field n = (x.field n).map Obj.reset) ∧
    (∀ i, x.reset.fieldAt i = (x.fieldAt i).map Obj.reset) ∧
    x.reset.asScalar = x.asScalar := by
  have hf : ∀ fs : List Obj, ((fs.map fun x => x.reset).filter fun x => !x.isHidden).length =
      (fs.filter fun x => !x.isHidden).length := by
    intro fs; rw [List.filter_map, List.length_map]
    congr 2; funext x; simp
  have hlk : ∀ (n : String) (fs : List (String × Obj)),
      lookup n (fs.map fun p => (p.1, p.2.reset)) = (lookup n fs).map Obj.reset :=
    fun n fs => lookup_map _ _ _
  refine ⟨?_, ?_, ?_, ?_, toValue_reset x, ?_, ?_, ?_⟩
  · cases x <;> simp [Obj.reset, Obj.kind]
  · cases x <;> simp [Obj.reset, Obj.variantName]
  · cases x with
    | struct tag fs => cases tag <;> simp [Obj.reset, Obj.fieldsLen, visFields_reset]
    | enumS tag v fs => cases tag <;> simp [Obj.reset, Obj.fieldsLen, visFields_reset]
    | tupleStruct | tuple | enumT => simp only [Obj.reset, Obj.fieldsLen, hf]
    | _ => simp [Obj.reset, Obj.fieldsLen]
  · intro i
    cases x with
    | struct tag fs => cases tag <;> simp [Obj.reset, Obj.nameAt, visFields_reset, Function.comp_def]
    | enumS tag v fs =>
      cases tag with
      | derived n =>
        simp only [Obj.reset, Obj.nameAt, List.getElem?_map]
        cases fs[i]? <;> simp
      | dyn ns => simp [Obj.reset, Obj.nameAt]
    | enumT tag v fs => cases tag <;> simp [Obj.reset, Obj.nameAt, visAt_reset, Function.comp_def]
    | _ => simp [Obj.reset, Obj.nameAt]
  · intro n
    cases x with
    | struct tag fs => simp [Obj.reset, Obj.field, lookup_visFields_reset]
    | enumS tag v fs => simp [Obj.reset, Obj.field, lookup_visFields_reset]
    | _ => simp [Obj.reset, Obj.field]
  · intro i
    cases x with
    | struct tag fs =>
      cases tag with
      | derived n => simp [Obj.reset, Obj.fieldAt, visFields_reset, Function.comp_def]
      | dyn ns =>
        simp only [Obj.reset, Obj.fieldAt]
        cases ns[i]? <;> simp [hlk]
    | enumS tag v fs =>
      cases tag with
      | derived n =>
        simp only [Obj.reset, Obj.fieldAt, List.map_map]
        rw [← visAt_reset, List.map_map]; rfl
      | dyn ns =>
        simp only [Obj.reset, Obj.fieldAt]
        cases ns[i]? <;> simp [hlk]
    | tupleStruct | tuple | enumT => simp only [Obj.reset, Obj.fieldAt, visAt_reset]
    | _ => simp [Obj.reset, Obj.fieldAt]
  · cases x <;> simp [Obj.reset, Obj.asScalar]

/-- C49. Type information does not know skipped fields: the names it lists are those of the others, and
asking for a skipped name finds nothing. -/
theorem struct_type_info_skips (hD : DeclsOK E) {fuel t d} (h : describe E fuel t = some d)
    {n fds c} (hd : E.decl n = some ⟨.struct fds, c⟩) {names fields}
    (hi : Nav d.graph d.root (.named n)) (hn : d.graph.node (.named n) = some (.struct names fields)) :
    names = (fds.filter fun fd => !fd.skip).map (·.name) ∧
    ∀ fd ∈ fds, fd.skip = true → fd.name ∉ names ∧ namedType fields fd.name = none := by
  have hdesc := (descriptor_describes hD h hi hn).1
  have hnd := hD.struct_names n fds c hd
  cases hdesc with
  | struct _ fds' c' _ _ hd' hf hl hs =>
    rw [hd] at hd'; cases hd'
    obtain ⟨hnames, -⟩ := namedTypes_unique hnd hf hl hs
    have hno : ∀ fd ∈ fds, fd.skip = true → ∀ fd2 ∈ visDefs fds, fd2.name ≠ fd.name := by
      intro fd hfd hsk fd2 hfd2 he
      have hfd2' := List.mem_filter.mp hfd2
      have := List.inj_on_of_nodup_map hnd hfd2'.1 hfd he
      subst this; simp [hsk] at hfd2'
    refine ⟨hnames, fun fd hfd hsk => ⟨?_, ?_⟩⟩
    · rw [hnames]; intro hm
      obtain ⟨fd2, hfd2, he⟩ := List.mem_map.mp hm
      exact hno fd hfd hsk fd2 hfd2 he
    · cases hu : namedType fields fd.name with
      | none => rfl
      | some u =>
        obtain ⟨fd2, hfd2, he, _⟩ := (namedType_iff hnd hf hl hs).mp hu
        exact absurd he (hno fd hfd hsk fd2 hfd2)

/-! ## Concrete cases -/

/-- `Secret` has a descriptor; its values fit it although a skipped field sits in the middle, and `hidden`
is nowhere to be found. -/
example : ∃ d node, describe demoEnv 10 (.named "Secret") = some d ∧
    d.graph.node (.named "Secret") = some node ∧ Fits demoEnv node demoSecret ∧
    demoSecret.field "hidden" = none ∧ demoSecret.fieldsLen = 2 ∧ demoSecret.nameAt 1 = some "b" := by
  refine ⟨_, _, rfl, rfl, ?_, ?_, rfl, rfl⟩
  · exact (struct_type_info_fits demo_declsOK (fuel := 10) (t := .named "Secret") rfl rfl .root rfl
      demoSecret_hasTy).1
  · exact ((struct_skips_hidden demo_declsOK rfl demoSecret_hasTy).2 ⟨"hidden", .scalar .bool, true⟩
      (by simp) rfl).1

/-- `Option`-like `Opt`, in its unit variant, fits. -/
example : ∃ d node, describe demoEnv 10 (.named "Opt") = some d ∧ d.graph.node d.root = some node ∧
    (Fits demoEnv node (.enumU (.derived "Opt") "None") ∨ node = .opaque) := by
  obtain ⟨node, h⟩ := type_info_fits_root_partial demo_declsOK (fuel := 10)
    (t := .named "Opt") rfl
    (.enumU "Opt" [.tuple "Some" [⟨"", .named "Point", false⟩], .unit "None"] true "None" rfl
      (List.mem_cons_of_mem _ (List.mem_cons_self ..))) trivial
  exact ⟨_, node, rfl, h⟩

/-- `Shifted` has a gap in front, so its type information does not fit its values. -/
example : ∃ d node, describe shiftedEnv 10 (.named "Shifted") = some d ∧
    d.graph.node (.named "Shifted") = some node ∧ node ≠ .opaque ∧ ¬ Fits shiftedEnv node shifted := by
  refine ⟨_, _, rfl, rfl, by simp, fun hf => ?_⟩
  have hg := (type_info_fits_iff shifted_declsOK (fuel := 10) (t := .named "Shifted") rfl .root rfl (by simp)
    shifted_hasTy).mp hf
  obtain ⟨y, hy, hv⟩ := hg 0 1 (by omega) _ rfl rfl
  cases hy; cases hv

/-- `Shifted` has a misplaced skip: the type lists a field at index 0. -/
example : ∃ d fields k u, describe shiftedEnv 10 (.named "Shifted") = some d ∧
    d.graph.node (.named "Shifted") = some (.tupleStruct fields) ∧ fields[k]? = some u ∧
    ∀ x, HasTy shiftedEnv (.named "Shifted") x → x.fieldAt k = none := by
  obtain ⟨fields, k, u, h⟩ := tuple_struct_type_info_misfits (E := shiftedEnv) shifted_declsOK (fuel := 10)
    (t := .named "Shifted") rfl (n := "Shifted") rfl (i := 0) (j := 1) rfl rfl rfl rfl (by omega) .root
  exact ⟨_, fields, k, u, rfl, h⟩

/-- Its first field is skipped: access by index shows the others, iteration nothing. -/
example : SkipsAt shiftedEnv [⟨"", .scalar .bool, true⟩, ⟨"", .scalar (.int .i32), false⟩,
      ⟨"", .scalar .string, false⟩] shifted ∧ shifted.fieldAt 2 = some (.scalar (.string "a")) ∧
    nthNext FieldIter.nextPos shifted.iter 0 = none :=
  ⟨tuple_struct_skips_hidden_partial rfl shifted_hasTy, rfl, rfl⟩

end Mirror
