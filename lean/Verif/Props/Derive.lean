import Verif.Props.Attrs

set_option linter.unusedSimpArgs false

/-!
# C71: which items `#[derive(Reflect)]` accepts, and the struct literals it generates
-/

namespace Mirror

theorem parseInner_isSome_iff (P : SynParsers) (as : List SAttr) :
    (∃ a, parseInner P as = some a) ↔ ∃ os, FieldSays P as os := by
  constructor
  · rintro ⟨a, h⟩
    obtain ⟨os, hs, _⟩ := (C71_field_exact P as a).mp h
    exact ⟨os, hs⟩
  · rintro ⟨os, hs⟩
    have hf : Fresh [] (FieldOpt.pairs os) := by
      rcases hs with ⟨_, rfl⟩ | ⟨_, _, _, _, _, _, hn⟩
      · exact fresh_nil _
      · exact ⟨hn, by simp⟩
    obtain ⟨h1, h4, h5, h6, h7⟩ := foldl_fieldOpt_meaning os (.new (DocsOf as)) .nil hf
    exact ⟨_, (C71_field_exact P as _).mpr ⟨os, hs, by rw [h1]; simp [InnerAttrs.new],
      by rw [h4]; simp [InnerAttrs.new], h5, by simpa [InnerAttrs.new] using h6, h7⟩⟩

theorem parseItem_isSome_iff (P : SynParsers) (as : List SAttr) :
    (∃ a, parseItem P as = some a) ↔ ∃ os, ItemSays P as os := by
  constructor
  · rintro ⟨a, h⟩
    obtain ⟨os, hs, _⟩ := (C71_item_exact P as a).mp h
    exact ⟨os, hs⟩
  · rintro ⟨os, hs⟩
    have hf : Fresh [] (ItemOpt.pairs os) := by
      rcases hs with ⟨_, rfl⟩ | ⟨_, _, _, _, _, _, hn⟩
      · exact fresh_nil _
      · exact ⟨hn, by simp⟩
    obtain ⟨h1, h2, h3, h4, h5, h6, h7⟩ := foldl_itemOpt_meaning os (.new (DocsOf as)) .nil hf
    exact ⟨_, (C71_item_exact P as _).mpr ⟨os, hs, by rw [h1]; simp [ItemAttrs.new],
      by rw [h2]; simp [ItemAttrs.new], by rw [h3]; simp [ItemAttrs.new], h4, h5,
      by simpa [ItemAttrs.new] using h6, h7⟩⟩

theorem mapM_isSome_iff {α β : Type} (f : α → Option β) (l : List α) :
    (∃ m, l.mapM f = some m) ↔ ∀ x ∈ l, ∃ y, f x = some y := by
  induction l with
  | nil => simp
  | cons x l ih =>
    rw [List.mapM_cons]
    simp only [List.mem_cons, forall_eq_or_imp]
    rw [← ih]
    cases f x with
    | none => simp
    | some y =>
      cases l.mapM f with
      | none => simp
      | some m => simp

theorem mapM_forall₂ {α β : Type} (f : α → Option β) (l : List α) (m : List β) (h : l.mapM f = some m) :
    List.Forall₂ (fun x y => f x = some y) l m := by
  induction l generalizing m with
  | nil => simp at h; subst h; exact .nil
  | cons x l ih =>
    rw [List.mapM_cons] at h
    cases hx : f x with
    | none => simp [hx] at h
    | some y =>
      cases hl : l.mapM f with
      | none => simp [hx, hl] at h
      | some m' =>
        simp [hx, hl] at h
        subst h
        exact .cons hx (ih m' hl)

theorem forall₂_right_mem {α β : Type} {R : α → β → Prop} {l : List α} {m : List β} (h : List.Forall₂ R l m)
    {y : β} (hy : y ∈ m) : ∃ x ∈ l, R x y := by
  induction h with
  | nil => simp at hy
  | cons h _ ih =>
    rcases List.mem_cons.mp hy with rfl | hy
    · exact ⟨_, by simp, h⟩
    · obtain ⟨x, hx, hr⟩ := ih hy
      exact ⟨x, by simp [hx], hr⟩

theorem forall₂_self {α : Type} {R : α → α → Prop} {l : List α} (h : ∀ x ∈ l, R x x) : List.Forall₂ R l l := by
  induction l with
  | nil => exact .nil
  | cons x l ih => exact .cons (h x (by simp)) (ih fun y hy => h y (by simp [hy]))

theorem parseFields_isSome_iff (P : SynParsers) (fs : List SField) :
    (∃ m, parseFields P fs = some m) ↔ ∀ f ∈ fs, ∃ os, FieldSays P f.attrs os := by
  unfold parseFields
  rw [mapM_isSome_iff]
  simp only [← parseInner_isSome_iff]
  constructor
  · intro h f hf
    obtain ⟨y, hy⟩ := h f hf
    cases hp : parseInner P f.attrs with
    | none => simp [hp] at hy
    | some a => exact ⟨a, rfl⟩
  · intro h f hf
    obtain ⟨a, ha⟩ := h f hf
    exact ⟨⟨f, a⟩, by simp [ha]⟩

theorem parseVariants_isSome_iff (P : SynParsers) (vs : List SVariant) :
    (∃ m, parseVariants P vs = some m) ↔ ∀ v ∈ vs, (∃ os, FieldSays P v.attrs os) ∧
      ∀ f ∈ v.fields.list, ∃ os, FieldSays P f.attrs os := by
  unfold parseVariants
  rw [mapM_isSome_iff]
  constructor
  · intro h v hv
    obtain ⟨y, hy⟩ := h v hv
    cases hp : parseFields P v.fields.list with
    | none => simp [hp] at hy
    | some fs =>
      cases ha : parseInner P v.attrs with
      | none => simp [hp, ha] at hy
      | some a => exact ⟨(parseInner_isSome_iff P _).mp ⟨a, ha⟩, (parseFields_isSome_iff P _).mp ⟨fs, hp⟩⟩
  · intro h v hv
    obtain ⟨h1, h2⟩ := h v hv
    obtain ⟨a, ha⟩ := (parseInner_isSome_iff P _).mpr h1
    obtain ⟨fs, hf⟩ := (parseFields_isSome_iff P _).mpr h2
    exact ⟨⟨v, a, fs⟩, by simp [ha, hf]⟩

theorem mem_attr_idents (a : SAttr) (s : String) : s ∈ a.idents ↔ a.Mentions s := by
  unfold SAttr.idents SAttr.Mentions
  cases a.body <;> simp

theorem mem_attrs_idents (as : List SAttr) (s : String) :
    s ∈ as.flatMap SAttr.idents ↔ ∃ a ∈ as, a.Mentions s := by
  simp only [List.mem_flatMap, mem_attr_idents]

theorem mem_field_idents (f : SField) (b : Bool) (s : String) :
    s ∈ f.allIdents b ↔ (∃ a ∈ f.attrs, a.Mentions s) ∨ s ∈ f.idents ∨ (b = true ∧ f.name = s) := by
  unfold SField.allIdents
  rw [List.mem_append, List.mem_append, mem_attrs_idents]
  cases b <;> simp [or_assoc, eq_comm]

theorem mem_fields_idents (fs : SFields) (s : String) :
    s ∈ fs.idents ↔ (∃ f ∈ fs.list, ∃ a ∈ f.attrs, a.Mentions s) ∨ (∃ f ∈ fs.list, s ∈ f.idents) ∨
      (∃ l, fs = .named l ∧ ∃ f ∈ l, f.name = s) := by
  cases fs with
  | named l =>
    simp only [SFields.idents, List.mem_flatMap, mem_field_idents, SFields.list, SFields.named.injEq,
      exists_eq_left', true_and, and_or_left, exists_or]
  | unnamed l =>
    simp only [SFields.idents, List.mem_flatMap, mem_field_idents, SFields.list, reduceCtorEq, false_and,
      exists_false, or_false, and_or_left, exists_or, Bool.false_eq_true]
  | unit => simp [SFields.idents, SFields.list]

/-- The identifiers the check looks at are those that occur in the item. -/
theorem mem_allIdents_iff (it : SItem) (s : String) : s ∈ it.allIdents ↔ it.Mentions s := by
  unfold SItem.allIdents
  simp only [List.mem_append, mem_attrs_idents, List.mem_singleton]
  constructor
  · rintro (((⟨a, ha, h⟩ | h) | h) | h)
    · exact .itemAttr a ha h
    · exact .header h
    · exact .itemName h.symm
    · cases hd : it.data with
      | struct fs =>
        simp only [hd] at h
        rcases (mem_fields_idents fs s).mp h with ⟨f, hf, a, ha, h⟩ | ⟨f, hf, h⟩ | ⟨l, rfl, f, hf, h⟩
        · exact .fieldAttr f (by simpa [SItem.HasField, hd] using hf) a ha h
        · exact .fieldType f (by simpa [SItem.HasField, hd] using hf) h
        · exact .fieldName f (by simpa [SItem.HasNamedField, hd] using hf) h
      | enum vs =>
        simp only [hd] at h
        obtain ⟨v, hv, h⟩ := List.mem_flatMap.mp h
        unfold SVariant.allIdents at h
        simp only [List.mem_append, mem_attrs_idents, List.mem_singleton] at h
        rcases h with ((⟨a, ha, h⟩ | h) | h) | h
        · exact .variantAttr v ⟨vs, hd, hv⟩ a ha h
        · exact .variantName v ⟨vs, hd, hv⟩ h.symm
        · rcases (mem_fields_idents _ s).mp h with ⟨f, hf, a, ha, h⟩ | ⟨f, hf, h⟩ | ⟨l, hl, f, hf, h⟩
          · exact .fieldAttr f (by simp only [SItem.HasField, hd]; exact ⟨v, hv, hf⟩) a ha h
          · exact .fieldType f (by simp only [SItem.HasField, hd]; exact ⟨v, hv, hf⟩) h
          · exact .fieldName f (by simp only [SItem.HasNamedField, hd]; exact ⟨v, hv, l, hl, hf⟩) h
        · exact .discriminant v ⟨vs, hd, hv⟩ h
      | union fs =>
        simp only [hd] at h
        obtain ⟨f, hf, h⟩ := List.mem_flatMap.mp h
        rcases (mem_field_idents _ _ s).mp h with ⟨a, ha, h⟩ | h | ⟨-, h⟩
        · exact .fieldAttr f (by simpa [SItem.HasField, hd] using hf) a ha h
        · exact .fieldType f (by simpa [SItem.HasField, hd] using hf) h
        · exact .fieldName f (by simpa [SItem.HasNamedField, hd] using hf) h
  · have hfld : ∀ f, it.HasField f → (∃ a ∈ f.attrs, a.Mentions s) ∨ s ∈ f.idents →
        s ∈ (match it.data with
          | .struct fs => fs.idents
          | .enum vs => vs.flatMap SVariant.allIdents
          | .union fs => fs.flatMap fun f : SField => f.allIdents true) := by
      intro f hf h
      unfold SItem.HasField at hf
      have hfs : ∀ fs : SFields, f ∈ fs.list → s ∈ fs.idents := fun fs hm =>
        (mem_fields_idents fs s).mpr (h.elim (fun h => .inl ⟨f, hm, h⟩) fun h => .inr (.inl ⟨f, hm, h⟩))
      cases hd : it.data with
      | struct fs => rw [hd] at hf; exact hfs fs hf
      | enum vs =>
        rw [hd] at hf
        obtain ⟨v, hv, hf⟩ := hf
        refine List.mem_flatMap.mpr ⟨v, hv, ?_⟩
        simp [SVariant.allIdents, hfs _ hf]
      | union fs =>
        rw [hd] at hf
        exact List.mem_flatMap.mpr ⟨f, hf, (mem_field_idents _ _ s).mpr (h.elim .inl fun h => .inr (.inl h))⟩
    intro h
    cases h with
    | itemAttr a ha h => exact .inl (.inl (.inl ⟨a, ha, h⟩))
    | header h => exact .inl (.inl (.inr h))
    | itemName h => exact .inl (.inr h.symm)
    | fieldAttr f hf a ha h => exact .inr (hfld f hf (.inl ⟨a, ha, h⟩))
    | fieldType f hf h => exact .inr (hfld f hf (.inr h))
    | fieldName f hf h =>
      refine .inr ?_
      unfold SItem.HasNamedField at hf
      split at hf
      · next fs hd => rw [hd]; exact (mem_fields_idents _ s).mpr (.inr (.inr ⟨fs, rfl, f, hf, h⟩))
      · next vs hd =>
        rw [hd]
        obtain ⟨v, hv, fs, hfs, hf⟩ := hf
        refine List.mem_flatMap.mpr ⟨v, hv, ?_⟩
        simp [SVariant.allIdents, (mem_fields_idents v.fields s).mpr (.inr (.inr ⟨fs, hfs, f, hf, h⟩))]
      · next fs hd =>
        rw [hd]
        exact List.mem_flatMap.mpr ⟨f, hf, (mem_field_idents _ _ s).mpr (.inr (.inr ⟨rfl, h⟩))⟩
      · exact hf.elim
    | variantAttr v hv a ha h =>
      obtain ⟨vs, hd, hv⟩ := hv
      refine .inr ?_
      rw [hd]
      refine List.mem_flatMap.mpr ⟨v, hv, ?_⟩
      simp only [SVariant.allIdents, List.mem_append, mem_attrs_idents]
      exact .inl (.inl (.inl ⟨a, ha, h⟩))
    | variantName v hv h =>
      obtain ⟨vs, hd, hv⟩ := hv
      refine .inr ?_
      rw [hd]
      refine List.mem_flatMap.mpr ⟨v, hv, ?_⟩
      simp [SVariant.allIdents, h]
    | discriminant v hv h =>
      obtain ⟨vs, hd, hv⟩ := hv
      refine .inr ?_
      rw [hd]
      refine List.mem_flatMap.mpr ⟨v, hv, ?_⟩
      simp [SVariant.allIdents, h]

/-- **C71.** The derive goes through exactly if the attributes of the item say something, the identifier
`HashMap` occurs nowhere in it, it is not a union, and the attributes of all its fields and variants say
something. That includes fields and variants that are skipped. -/
theorem C71_derive_accepts_iff (P : SynParsers) (it : SItem) :
    (∃ d, derive P it = some d) ↔
      (∃ os, ItemSays P it.attrs os) ∧ ¬ it.Mentions "HashMap" ∧ (∀ fs, it.data ≠ .union fs) ∧
        it.InnerOK P := by
  rw [← parseItem_isSome_iff, ← mem_allIdents_iff]
  unfold derive checkUnsupported SItem.InnerOK SItem.HasField
  cases ha : parseItem P it.attrs with
  | none => simp
  | some a =>
    by_cases hh : "HashMap" ∈ it.allIdents
    · simp [hh]
    · simp only [hh, if_false, Option.bind_some, not_false_eq_true, true_and, Option.some.injEq,
        exists_eq_left', exists_eq']
      cases hd : it.data with
      | struct fs =>
        cases fs with
        | named fs =>
          have := parseFields_isSome_iff P fs
          simp only [SFields.list, reduceCtorEq, ne_eq, not_false_eq_true, implies_true, true_and, and_true]
          rw [← this]
          cases parseFields P fs <;> simp
        | unnamed fs =>
          have := parseFields_isSome_iff P fs
          simp only [SFields.list, reduceCtorEq, ne_eq, not_false_eq_true, implies_true, true_and, and_true]
          rw [← this]
          cases parseFields P fs <;> simp
        | unit => simp [SFields.list]
      | enum vs =>
        have := parseVariants_isSome_iff P vs
        simp only [reduceCtorEq, ne_eq, not_false_eq_true, implies_true, true_and]
        have h2 : ((∀ f, (∃ v ∈ vs, f ∈ v.fields.list) → ∃ os, FieldSays P f.attrs os) ∧
            ∀ v ∈ vs, ∃ os, FieldSays P v.attrs os) ↔ ∀ v ∈ vs, (∃ os, FieldSays P v.attrs os) ∧
              ∀ f ∈ v.fields.list, ∃ os, FieldSays P f.attrs os := by
          constructor
          · rintro ⟨h1, h2⟩ v hv
            exact ⟨h2 v hv, fun f hf => h1 f ⟨v, hv, hf⟩⟩
          · intro h
            exact ⟨fun f ⟨v, hv, hf⟩ => (h v hv).2 f hf, fun v hv => (h v hv).1⟩
        rw [h2, ← this]
        cases parseVariants P vs <;> simp
      | union fs => simp

/-- **C71.** The switches of the expansion are what the attributes of the item say. -/
theorem C71_item_attrs (P : SynParsers) (it : SItem) (d : Derived) (h : derive P it = some d) :
    parseItem P it.attrs = some d.attrs := by
  unfold derive at h
  cases ha : parseItem P it.attrs with
  | none => simp [ha] at h
  | some a =>
    cases hc : checkUnsupported it with
    | none => simp [ha, hc] at h
    | some u =>
      simp only [ha, hc, Option.bind_some] at h
      split at h
      · cases hp : parseFields P _ with
        | none => rw [hp] at h; cases h
        | some pfs => rw [hp] at h; cases h; rfl
      · cases hp : parseFields P _ with
        | none => rw [hp] at h; cases h
        | some pfs => rw [hp] at h; cases h; rfl
      · cases h; rfl
      · cases hp : parseVariants P _ with
        | none => rw [hp] at h; cases h
        | some pfs => rw [hp] at h; cases h; rfl
      · cases h

/-- **C71** (finding). A field whose type mentions `HashMap` cannot be hidden with `#[reflect(skip)]`: the
derive refuses the item, whatever the attributes of the field say. The documentation offers `skip` for fields
of types that are not compatible with reflection. -/
theorem C71_skipped_hashmap_refused (P : SynParsers) (it : SItem) (f : SField) (hf : it.HasField f)
    (hm : "HashMap" ∈ f.idents) : derive P it = none := by
  cases h : derive P it with
  | none => rfl
  | some d =>
    have := (C71_derive_accepts_iff P it).mp ⟨d, h⟩
    exact absurd (.fieldType f hf hm) this.2.1

/-- **C71** (finding). A unit struct is derived as a struct without fields; the documentation says "Unit
structs are treated as tuple structs with no fields". -/
theorem C71_unit_struct_is_struct (P : SynParsers) (it : SItem) (d : Derived)
    (hd : it.data = .struct .unit) (h : derive P it = some d) : d.shape = .struct [] := by
  unfold derive at h
  rw [hd] at h
  cases ha : parseItem P it.attrs with
  | none => simp [ha] at h
  | some a =>
    cases hc : checkUnsupported it with
    | none => simp [ha, hc] at h
    | some u =>
      simp [ha, hc] at h
      rw [← h]

theorem declares_of_parse {P : SynParsers} {f : SField} {a : InnerAttrs} (h : parseInner P f.attrs = some a) :
    DeclaresField P f (PField.def ⟨f, a⟩) := by
  obtain ⟨os, hs, hm⟩ := (C71_field_exact P _ _).mp h
  exact ⟨os, hs, rfl, rfl, hm.skip⟩

theorem declares_fields {P : SynParsers} {fs : List SField} {pfs : List PField}
    (h : parseFields P fs = some pfs) : List.Forall₂ (DeclaresField P) fs (pfs.map PField.def) := by
  have := mapM_forall₂ _ _ _ h
  rw [List.forall₂_map_right_iff]
  refine this.imp ?_
  intro f pf hp
  cases ha : parseInner P f.attrs with
  | none => simp [ha] at hp
  | some a =>
    simp [ha] at hp
    subst hp
    exact declares_of_parse ha

/-- **C71.** The declaration that comes out: named fields make a struct, positions a tuple struct, with the
fields in order and marked skipped exactly if their attributes say `skip`; an enum has the variants that are not
skipped, in order. -/
theorem C71_shape (P : SynParsers) (it : SItem) (d : Derived) (h : derive P it = some d) :
    match it.data with
    | .struct (.named fs) => ∃ fds, d.shape = .struct fds ∧ List.Forall₂ (DeclaresField P) fs fds
    | .struct (.unnamed fs) => ∃ fds, d.shape = .tupleStruct fds ∧ List.Forall₂ (DeclaresField P) fs fds
    | .struct .unit => d.shape = .struct []
    | .enum vs => ∃ kept vds, d.shape = .enum vds ∧
        kept.Sublist vs ∧ (∀ v ∈ vs, v ∈ kept ∨ ∃ os, FieldSays P v.attrs os ∧ .skip ∈ os) ∧
        (∀ v ∈ kept, ∃ os, FieldSays P v.attrs os ∧ .skip ∉ os) ∧
        List.Forall₂ (DeclaresVariant P) kept vds
    | .union _ => False := by
  unfold derive at h
  cases ha : parseItem P it.attrs with
  | none => simp [ha] at h
  | some a =>
    cases hc : checkUnsupported it with
    | none => simp [ha, hc] at h
    | some u =>
      simp only [ha, hc, Option.bind_some] at h
      cases hd : it.data with
      | struct fs =>
        cases fs with
        | named fs =>
          rw [hd] at h
          simp only at h ⊢
          cases hp : parseFields P fs with
          | none => simp [hp] at h
          | some pfs =>
            simp [hp] at h
            rw [← h]
            exact ⟨_, rfl, declares_fields hp⟩
        | unnamed fs =>
          rw [hd] at h
          simp only at h ⊢
          cases hp : parseFields P fs with
          | none => simp [hp] at h
          | some pfs =>
            simp [hp] at h
            rw [← h]
            exact ⟨_, rfl, declares_fields hp⟩
        | unit =>
          rw [hd] at h
          simp at h
          rw [← h]
      | enum vs =>
        rw [hd] at h
        simp only at h ⊢
        cases hp : parseVariants P vs with
        | none => simp [hp] at h
        | some pvs =>
          simp only [hp, Option.map_some, Option.some.injEq] at h
          have hf := mapM_forall₂ _ _ _ hp
          have hone : ∀ v pv, ((parseFields P v.fields.list).bind fun fs =>
              (parseInner P v.attrs).map fun a => (⟨v, a, fs⟩ : PVariant)) = some pv →
              pv.variant = v ∧ parseInner P v.attrs = some pv.attrs ∧
                parseFields P v.fields.list = some pv.fields := by
            intro v pv hv
            cases h1 : parseFields P v.fields.list with
            | none => simp [h1] at hv
            | some fs =>
              cases h2 : parseInner P v.attrs with
              | none => simp [h1, h2] at hv
              | some a => simp [h1, h2] at hv; subst hv; exact ⟨rfl, rfl, rfl⟩
          have hmap : pvs.map (·.variant) = vs := by
            clear h hp hd
            induction hf with
            | nil => rfl
            | cons h _ ih => simp [ih, (hone _ _ h).1]
          refine ⟨(pvs.filter fun v => !v.attrs.skip).map (·.variant), _, by rw [← h], ?_, ?_, ?_, ?_⟩
          · rw [← hmap]
            exact List.filter_sublist.map _
          · intro v hv
            rw [← hmap, List.mem_map] at hv
            obtain ⟨pv, hpv, rfl⟩ := hv
            cases hs : pv.attrs.skip with
            | false => exact .inl (List.mem_map_of_mem (List.mem_filter.mpr ⟨hpv, by simp [hs]⟩))
            | true =>
              obtain ⟨v, _, hv⟩ := forall₂_right_mem hf hpv
              obtain ⟨h1, h2, _⟩ := hone _ _ hv
              obtain ⟨os, hsay, hm⟩ := (C71_field_exact P _ _).mp h2
              exact .inr ⟨os, by rw [h1]; exact hsay, hm.skip.mp hs⟩
          · intro v hv
            rw [List.mem_map] at hv
            obtain ⟨pv, hpv, rfl⟩ := hv
            obtain ⟨hpv, hs⟩ := List.mem_filter.mp hpv
            obtain ⟨v, _, hv⟩ := forall₂_right_mem hf hpv
            obtain ⟨h1, h2, _⟩ := hone _ _ hv
            obtain ⟨os, hsay, hm⟩ := (C71_field_exact P _ _).mp h2
            refine ⟨os, by rw [h1]; exact hsay, ?_⟩
            intro hin
            rw [hm.skip.mpr hin] at hs
            cases hs
          · rw [List.forall₂_map_left_iff, List.forall₂_map_right_iff]
            refine forall₂_self ?_
            intro pv hpv
            obtain ⟨hpv, _⟩ := List.mem_filter.mp hpv
            obtain ⟨v, _, hv⟩ := forall₂_right_mem hf hpv
            obtain ⟨rfl, _, h3⟩ := hone _ _ hv
            unfold PVariant.def DeclaresVariant
            cases hfs : pv.variant.fields with
            | named fs => rw [hfs] at h3; exact ⟨rfl, declares_fields h3⟩
            | unnamed fs => rw [hfs] at h3; exact ⟨rfl, declares_fields h3⟩
            | unit => rfl
      | union fs => rw [hd] at h; simp at h

/-! ## The literals in the generated `from_reflect` -/

theorem separated_flat (l : List FieldInit) : Separated (l.flatMap initTokens) := by
  induction l with
  | nil => exact .nil
  | cons i l ih => exact .comma i ih

theorem separated_tuple_iff (l : List FieldInit) :
    Separated (l.flatMap initTokensTuple) ↔ ∀ i g, l[i]? = some (.call g) → i + 1 = l.length := by
  induction l with
  | nil => simp; exact .nil
  | cons x l ih =>
    by_cases hx : ∃ g, x = .call g
    · obtain ⟨g, rfl⟩ := hx
      simp only [List.flatMap_cons, initTokensTuple, List.singleton_append]
      constructor
      · intro h
        have hl : l = [] := by
          cases l with
          | nil => rfl
          | cons y l => cases y <;> simp [initTokensTuple] at h <;> cases h
        subst hl
        intro i g' hi
        cases i with
        | zero => simp
        | succ i => simp at hi
      · intro h
        have := h 0 g (by simp)
        have hl : l = [] := by simpa using this
        subst hl
        exact .one _
    · have htok : initTokensTuple x = [.init x, .comma] := by
        cases x <;> simp [initTokensTuple] at hx ⊢
      simp only [List.flatMap_cons, htok, List.cons_append, List.nil_append]
      constructor
      · intro h
        have h' : Separated (l.flatMap initTokensTuple) := by cases h; assumption
        rw [ih] at h'
        intro i g hi
        cases i with
        | zero => simp at hi; exact absurd ⟨g, hi⟩ hx
        | succ i => have := h' i g (by simpa using hi); simp [this]
      · intro h
        refine .comma x (ih.mpr ?_)
        intro i g hi
        have := h (i + 1) g (by simpa using hi)
        simpa using this

theorem initsOf_initTokens (l : List FieldInit) : initsOf (l.flatMap initTokens) = l := by
  induction l with
  | nil => rfl
  | cons i l ih => simpa [initsOf, initTokens] using ih

theorem initsOf_initTokensTuple (l : List FieldInit) : initsOf (l.flatMap initTokensTuple) = l := by
  induction l with
  | nil => rfl
  | cons i l ih =>
    have : initsOf (initTokensTuple i) = [i] := by cases i <;> rfl
    have hap : ∀ a b, initsOf (a ++ b) = initsOf a ++ initsOf b := by intro a b; simp [initsOf]
    rw [List.flatMap_cons, hap, this, ih]; rfl

theorem init_of_parse {P : SynParsers} {c : Bool} {f : SField} {a : InnerAttrs}
    (h : parseInner P f.attrs = some a) : InitFor P c f (PField.init c ⟨f, a⟩) := by
  obtain ⟨os, hs, hm⟩ := (C71_field_exact P _ _).mp h
  refine ⟨os, hs, ?_, ?_, ?_⟩
  · intro h'; simp [PField.init, hm.skip.mpr h']
  · intro h' g hg
    have : a.skip = false := by
      cases h2 : a.skip with
      | false => rfl
      | true => exact absurd (hm.skip.mp h2) h'
    simp [PField.init, this, hm.with, hg]
  · intro h' hg
    have : a.skip = false := by
      cases h2 : a.skip with
      | false => rfl
      | true => exact absurd (hm.skip.mp h2) h'
    simp [PField.init, this, hm.with, hg]

theorem init_fields {P : SynParsers} {c : Bool} {fs : List SField} {pfs : List PField}
    (h : parseFields P fs = some pfs) : List.Forall₂ (InitFor P c) fs (pfs.map (PField.init c)) := by
  have := mapM_forall₂ _ _ _ h
  rw [List.forall₂_map_right_iff]
  refine this.imp ?_
  intro f pf hp
  cases ha : parseInner P f.attrs with
  | none => simp [ha] at hp
  | some a =>
    simp [ha] at hp
    subst hp
    exact init_of_parse ha

/-- **C71.** With `opt_out(FromReflect)` no `from_reflect` is generated; otherwise it builds one literal for a
struct and one for each variant that is not skipped, with one initialiser for each field, in order, chosen by
the attributes of the field. -/
theorem C71_literals (P : SynParsers) (it : SItem) (d : Derived) (h : derive P it = some d) :
    (d.attrs.fromReflectOptOut = true → d.literals = []) ∧
    (d.attrs.fromReflectOptOut = false →
      match it.data with
      | .struct fs => ∃ l, d.literals = [l] ∧
          List.Forall₂ (InitFor P d.attrs.cloneOptOut) fs.list (initsOf l)
      | .enum vs => ∃ kept : List SVariant, kept.Sublist vs ∧
          (∀ v ∈ vs, v ∈ kept ∨ ∃ os, FieldSays P v.attrs os ∧ .skip ∈ os) ∧
          (∀ v ∈ kept, ∃ os, FieldSays P v.attrs os ∧ .skip ∉ os) ∧
          List.Forall₂ (fun v l => List.Forall₂ (InitFor P d.attrs.cloneOptOut) v.fields.list (initsOf l))
            kept d.literals
      | .union _ => False) := by
  unfold derive at h
  cases ha : parseItem P it.attrs with
  | none => simp [ha] at h
  | some a =>
    cases hc : checkUnsupported it with
    | none => simp [ha, hc] at h
    | some u =>
      simp only [ha, hc, Option.bind_some] at h
      cases hd : it.data with
      | struct fs =>
        cases fs with
        | named fs =>
          rw [hd] at h
          simp only at h ⊢
          cases hp : parseFields P fs with
          | none => simp [hp] at h
          | some pfs =>
            simp [hp] at h
            rw [← h]
            refine ⟨fun ho => by simp at ho; simp [literalsOf, ho], fun ho => ?_⟩
            simp only at ho ⊢
            refine ⟨_, by simp only [literalsOf, ho]; rfl, ?_⟩
            have : (pfs.flatMap fun f => initTokens (f.init a.cloneOptOut)) =
                (pfs.map (PField.init a.cloneOptOut)).flatMap initTokens := by rw [List.flatMap_map]
            rw [this, initsOf_initTokens]
            exact init_fields hp
        | unnamed fs =>
          rw [hd] at h
          simp only at h ⊢
          cases hp : parseFields P fs with
          | none => simp [hp] at h
          | some pfs =>
            simp [hp] at h
            rw [← h]
            refine ⟨fun ho => by simp at ho; simp [literalsOf, ho], fun ho => ?_⟩
            simp only at ho ⊢
            refine ⟨_, by simp only [literalsOf, ho]; rfl, ?_⟩
            have : (pfs.flatMap fun f => initTokensTuple (f.init a.cloneOptOut)) =
                (pfs.map (PField.init a.cloneOptOut)).flatMap initTokensTuple := by rw [List.flatMap_map]
            rw [this, initsOf_initTokensTuple]
            exact init_fields hp
        | unit =>
          rw [hd] at h
          simp at h
          rw [← h]
          refine ⟨fun ho => by simp at ho; simp [literalsOf, ho], fun ho => ?_⟩
          simp only at ho ⊢
          exact ⟨[], by simp only [literalsOf, ho]; rfl, .nil⟩
      | enum vs =>
        rw [hd] at h
        simp only at h ⊢
        cases hp : parseVariants P vs with
        | none => simp [hp] at h
        | some pvs =>
          simp only [hp, Option.map_some, Option.some.injEq] at h
          have hf := mapM_forall₂ _ _ _ hp
          have hone : ∀ v pv, ((parseFields P v.fields.list).bind fun fs =>
              (parseInner P v.attrs).map fun a => (⟨v, a, fs⟩ : PVariant)) = some pv →
              pv.variant = v ∧ parseInner P v.attrs = some pv.attrs ∧
                parseFields P v.fields.list = some pv.fields := by
            intro v pv hv
            cases h1 : parseFields P v.fields.list with
            | none => simp [h1] at hv
            | some fs =>
              cases h2 : parseInner P v.attrs with
              | none => simp [h1, h2] at hv
              | some a => simp [h1, h2] at hv; subst hv; exact ⟨rfl, rfl, rfl⟩
          have hmap : pvs.map (·.variant) = vs := by
            clear h hp hd
            induction hf with
            | nil => rfl
            | cons h _ ih => simp [ih, (hone _ _ h).1]
          rw [← h]
          refine ⟨fun ho => by simp at ho; simp [literalsOf, ho], fun ho => ?_⟩
          simp only at ho ⊢
          refine ⟨(pvs.filter fun v => !v.attrs.skip).map (·.variant), ?_, ?_, ?_, ?_⟩
          · rw [← hmap]
            exact List.filter_sublist.map _
          · intro v hv
            rw [← hmap, List.mem_map] at hv
            obtain ⟨pv, hpv, rfl⟩ := hv
            cases hs : pv.attrs.skip with
            | false => exact .inl (List.mem_map_of_mem (List.mem_filter.mpr ⟨hpv, by simp [hs]⟩))
            | true =>
              obtain ⟨v, _, hv⟩ := forall₂_right_mem hf hpv
              obtain ⟨h1, h2, _⟩ := hone _ _ hv
              obtain ⟨os, hsay, hm⟩ := (C71_field_exact P _ _).mp h2
              exact .inr ⟨os, by rw [h1]; exact hsay, hm.skip.mp hs⟩
          · intro v hv
            rw [List.mem_map] at hv
            obtain ⟨pv, hpv, rfl⟩ := hv
            obtain ⟨hpv, hs⟩ := List.mem_filter.mp hpv
            obtain ⟨v, _, hv⟩ := forall₂_right_mem hf hpv
            obtain ⟨h1, h2, _⟩ := hone _ _ hv
            obtain ⟨os, hsay, hm⟩ := (C71_field_exact P _ _).mp h2
            refine ⟨os, by rw [h1]; exact hsay, ?_⟩
            intro hin
            rw [hm.skip.mpr hin] at hs
            cases hs
          · simp only [literalsOf, ho, Bool.false_eq_true, if_false]
            rw [List.forall₂_map_left_iff, List.forall₂_map_right_iff]
            refine forall₂_self ?_
            intro pv hpv
            obtain ⟨hpv, _⟩ := List.mem_filter.mp hpv
            obtain ⟨v, _, hv⟩ := forall₂_right_mem hf hpv
            obtain ⟨rfl, _, h3⟩ := hone _ _ hv
            have : (pv.fields.flatMap fun f => initTokens (f.init a.cloneOptOut)) =
                (pv.fields.map (PField.init a.cloneOptOut)).flatMap initTokens := by rw [List.flatMap_map]
            rw [this, initsOf_initTokens]
            exact init_fields h3
      | union fs => rw [hd] at h; simp at h

/-- **C71.** The literals generated for structs with named fields, unit structs and enums are well-formed: the
initialisers are separated by commas. -/
theorem C71_literals_separated_partial (P : SynParsers) (it : SItem) (d : Derived) (h : derive P it = some d)
    (hnot : ∀ fs, it.data ≠ .struct (.unnamed fs)) : ∀ l ∈ d.literals, Separated l := by
  have hlit : ∀ (a : ItemAttrs) ls, (∀ l ∈ ls, Separated l) → ∀ l ∈ literalsOf a ls, Separated l := by
    intro a ls hl l hin
    unfold literalsOf at hin
    split at hin
    · simp at hin
    · exact hl l hin
  have hsep : ∀ (pfs : List PField) (c : Bool), Separated (pfs.flatMap fun f => initTokens (f.init c)) := by
    intro pfs c
    have : (pfs.flatMap fun f => initTokens (f.init c)) = (pfs.map (PField.init c)).flatMap initTokens := by
      rw [List.flatMap_map]
    rw [this]; exact separated_flat _
  unfold derive at h
  cases ha : parseItem P it.attrs with
  | none => simp [ha] at h
  | some a =>
    cases hc : checkUnsupported it with
    | none => simp [ha, hc] at h
    | some u =>
      simp only [ha, hc, Option.bind_some] at h
      cases hd : it.data with
      | struct fs =>
        cases fs with
        | named fs =>
          rw [hd] at h
          simp only at h
          cases hp : parseFields P fs with
          | none => simp [hp] at h
          | some pfs =>
            simp [hp] at h
            rw [← h]
            refine hlit a _ ?_
            intro l hl
            simp only [List.mem_singleton] at hl
            subst hl
            exact hsep pfs _
        | unnamed fs => exact absurd hd (hnot fs)
        | unit =>
          rw [hd] at h
          simp at h
          rw [← h]
          refine hlit a _ ?_
          intro l hl
          simp only [List.mem_singleton] at hl
          subst hl
          exact .nil
      | enum vs =>
        rw [hd] at h
        simp only at h
        cases hp : parseVariants P vs with
        | none => simp [hp] at h
        | some pvs =>
          simp only [hp, Option.map_some, Option.some.injEq] at h
          rw [← h]
          refine hlit a _ ?_
          intro l hl
          obtain ⟨pv, _, rfl⟩ := List.mem_map.mp hl
          exact hsep _ _
      | union fs => rw [hd] at h; simp at h

/-- **C71** (finding). The literal generated for a tuple struct is well-formed exactly if no field but the
last one is converted by a `from_reflect_with` function: after such a field the comma is missing. -/
theorem C71_tuple_literal_iff (P : SynParsers) (it : SItem) (fs : List SField) (d : Derived)
    (hd : it.data = .struct (.unnamed fs)) (h : derive P it = some d)
    (ho : d.attrs.fromReflectOptOut = false) :
    (∀ l ∈ d.literals, Separated l) ↔
      ∀ i f os g, fs[i]? = some f → FieldSays P f.attrs os → .skip ∉ os → .with g ∈ os → i + 1 = fs.length := by
  unfold derive at h
  cases ha : parseItem P it.attrs with
  | none => simp [ha] at h
  | some a =>
    cases hc : checkUnsupported it with
    | none => simp [ha, hc] at h
    | some u =>
      simp only [ha, hc, Option.bind_some, hd] at h
      cases hp : parseFields P fs with
      | none => simp [hp] at h
      | some pfs =>
        simp [hp] at h
        subst h
        simp only at ho
        have hf := mapM_forall₂ _ _ _ hp
        have hlen : pfs.length = fs.length := hf.length_eq.symm
        have hget : ∀ (i : Nat) (f : SField), fs[i]? = some f → ∃ at', parseInner P f.attrs = some at' ∧ pfs[i]? = some ⟨f, at'⟩ := by
          intro i f hi
          obtain ⟨hi0, rfl⟩ := List.getElem?_eq_some_iff.mp hi
          have hi' : i < pfs.length := by omega
          have := (List.forall₂_iff_get.mp hf).2 i hi0 hi'
          simp only [List.get_eq_getElem] at this
          cases hx : parseInner P fs[i].attrs with
          | none => simp [hx] at this
          | some at' =>
            simp [hx] at this
            exact ⟨at', rfl, by rw [this]; exact List.getElem?_eq_getElem hi'⟩
        have : (pfs.flatMap fun f => initTokensTuple (f.init a.cloneOptOut)) =
            (pfs.map (PField.init a.cloneOptOut)).flatMap initTokensTuple := by rw [List.flatMap_map]
        simp only [literalsOf, ho, Bool.false_eq_true, if_false, List.mem_singleton, forall_eq]
        rw [this, separated_tuple_iff]
        simp only [List.length_map, List.getElem?_map, hlen]
        constructor
        · intro h i f os g hi hs hsk hw
          obtain ⟨at', h1, h2⟩ := hget i f hi
          obtain ⟨os', hs', hm⟩ := (C71_field_exact P _ _).mp h1
          cases C71_field_says_unique P _ _ _ hs hs'
          have hskip : at'.skip = false := by
            cases h3 : at'.skip with
            | false => rfl
            | true => exact absurd (hm.skip.mp h3) hsk
          have hmem : g ∈ FieldOpt.withs os := List.mem_filterMap.mpr ⟨.with g, hw, rfl⟩
          cases hlast : (FieldOpt.withs os).getLast? with
          | none => rw [List.getLast?_eq_none_iff] at hlast; simp [hlast] at hmem
          | some g' =>
            refine h i g' ?_
            simp [h2, PField.init, hskip, hm.with, hlast]
        · intro h i g hi
          cases hpf : pfs[i]? with
          | none => simp [hpf] at hi
          | some pf =>
            simp only [hpf, Option.map_some, Option.some.injEq] at hi
            have hi' : i < fs.length := by
              have := (List.getElem?_eq_some_iff.mp hpf).1; omega
            obtain ⟨at', h1, h2⟩ := hget i fs[i] (List.getElem?_eq_getElem hi')
            rw [hpf] at h2
            cases h2
            obtain ⟨os, hs, hm⟩ := (C71_field_exact P _ _).mp h1
            have hsk : at'.skip = false := by
              cases h3 : at'.skip with
              | false => rfl
              | true => simp [PField.init, h3] at hi
            have hw : at'.fromReflectWith = some g := by
              cases h3 : at'.fromReflectWith with
              | none => simp [PField.init, hsk, h3] at hi; split at hi <;> cases hi
              | some g' => simp [PField.init, hsk, h3] at hi; rw [hi]
            rw [hm.with] at hw
            have hmem := List.mem_of_getLast? hw
            obtain ⟨o, ho', hog⟩ := List.mem_filterMap.mp hmem
            refine h i fs[i] os g (List.getElem?_eq_getElem hi') hs ?_ ?_
            · intro hin; rw [hm.skip.mpr hin] at hsk; cases hsk
            · cases o <;> simp at hog
              subst hog; exact ho'

/-- **C71** (finding). On a variant, `from_reflect_with` is accepted and does nothing: two enums that differ only
in the attributes of a variant, which agree on skipping it, have the same expansion. (Metadata and docs are
not part of `Derived`; see C57.) -/
theorem C71_variant_with_ignored (P : SynParsers) (it : SItem) (l r : List SVariant) (v : SVariant)
    (as' : List SAttr) (os os' : List FieldOpt) (hd : it.data = .enum (l ++ v :: r))
    (hs : FieldSays P v.attrs os) (hs' : FieldSays P as' os') (hsk : .skip ∈ os ↔ .skip ∈ os')
    (hid : (∃ a ∈ v.attrs, a.Mentions "HashMap") ↔ ∃ a ∈ as', a.Mentions "HashMap") :
    derive P { it with data := .enum (l ++ { v with attrs := as' } :: r) } = derive P it := by
  have hcheck : checkUnsupported { it with data := .enum (l ++ { v with attrs := as' } :: r) } =
      checkUnsupported it := by
    unfold checkUnsupported
    have : "HashMap" ∈ ({ it with data := .enum (l ++ { v with attrs := as' } :: r) } : SItem).allIdents ↔
        "HashMap" ∈ it.allIdents := by
      unfold SItem.allIdents
      rw [hd]
      simp only [List.mem_append, List.flatMap_append, List.flatMap_cons, SVariant.allIdents, mem_attrs_idents,
        hid]
    simp only [this]
  obtain ⟨a, ha⟩ := (parseInner_isSome_iff P _).mpr ⟨os, hs⟩
  obtain ⟨a', ha'⟩ := (parseInner_isSome_iff P _).mpr ⟨os', hs'⟩
  have hskip : a'.skip = a.skip := by
    obtain ⟨o1, h1, hm1⟩ := (C71_field_exact P _ _).mp ha
    obtain ⟨o2, h2, hm2⟩ := (C71_field_exact P _ _).mp ha'
    cases C71_field_says_unique P _ _ _ hs h1
    cases C71_field_says_unique P _ _ _ hs' h2
    exact bool_eq_of_iff (hm2.skip.trans (hsk.symm.trans hm1.skip.symm))
  unfold derive
  rw [hcheck]
  simp only [hd]
  cases parseItem P it.attrs with
  | none => rfl
  | some ia =>
    cases checkUnsupported it with
    | none => rfl
    | some u =>
      simp only [Option.bind_some]
      have hp : ∀ (x : SVariant), parseVariants P (l ++ x :: r) =
          (parseVariants P l).bind fun pl =>
            ((parseFields P x.fields.list).bind fun fs =>
              (parseInner P x.attrs).map fun a => (⟨x, a, fs⟩ : PVariant)).bind fun px =>
              (parseVariants P r).map fun pr => pl ++ px :: pr := by
        intro x
        unfold parseVariants
        rw [List.mapM_append, List.mapM_cons]
        simp only [Option.bind_eq_bind, Option.pure_def]
        congr 1
        funext pl
        cases ((parseFields P x.fields.list).bind fun fs =>
            (parseInner P x.attrs).map fun a => (⟨x, a, fs⟩ : PVariant)) with
        | none => rfl
        | some px =>
          simp only [Option.bind_some]
          rw [Option.map_eq_bind, Option.bind_assoc]
          rfl
      rw [hp, hp]
      cases parseVariants P l with
      | none => rfl
      | some pl =>
        simp only [Option.bind_some, ha, ha', Option.map_some]
        cases parseFields P v.fields.list with
        | none => rfl
        | some fs =>
          simp only [Option.bind_some]
          cases parseVariants P r with
          | none => rfl
          | some pr =>
            simp only [Option.map_some, Option.some.injEq, Derived.mk.injEq, true_and, List.filter_append,
              List.filter_cons, hskip]
            split
            · simp [PVariant.def]
            · simp

/-! ## Concrete cases -/

/-- `#[reflect(from_reflect_with(f))]` -/
def withF : SAttr := ⟨["reflect"], .list [.ident "from_reflect_with", .paren [.ident "f"]]⟩

theorem withF_says : FieldSays demoParsers [withF] [.with "f"] :=
  .inr ⟨[], [], _, rfl, by simp, .cons ⟨rfl, .inl rfl⟩ .nil, by simp [FieldOpt.pairs]⟩

/-- `#[reflect(skip)]` -/
def skipAttr : SAttr := ⟨["reflect"], .list [.ident "skip"]⟩

theorem skipAttr_says : FieldSays demoParsers [skipAttr] [.skip] :=
  .inr ⟨[], [], _, rfl, by simp, .cons rfl .nil, by simp [FieldOpt.pairs]⟩

/-- `struct B(#[reflect(from_reflect_with(f))] f32, bool);` -/
def demoTupleItem : SItem :=
  ⟨[], "B", [], .struct (.unnamed [⟨[withF], "", .scalar .f32, ["f32"]⟩, ⟨[], "", .scalar .bool, ["bool"]⟩])⟩

/-- The derive goes through, and what it generates does not parse. -/
theorem C71_tuple_with_breaks_witness : ∃ d, derive demoParsers demoTupleItem = some d ∧
    ∃ l ∈ d.literals, ¬ Separated l := by
  obtain ⟨d, hd⟩ := (C71_derive_accepts_iff demoParsers demoTupleItem).mpr
    ⟨⟨[], .inl ⟨by simp [demoTupleItem], rfl⟩⟩, by rw [← mem_allIdents_iff]; decide, by simp [demoTupleItem], by
      refine ⟨?_, trivial⟩
      intro f hf
      simp only [SItem.HasField, demoTupleItem, SFields.list, List.mem_cons, List.not_mem_nil, or_false] at hf
      rcases hf with rfl | rfl
      · exact ⟨_, withF_says⟩
      · exact ⟨[], .inl ⟨by simp, rfl⟩⟩⟩
  refine ⟨d, hd, ?_⟩
  have ho : d.attrs.fromReflectOptOut = false := by
    have := C71_item_attrs demoParsers _ d hd
    have h2 : parseItem demoParsers demoTupleItem.attrs = some (.new []) := rfl
    rw [h2] at this
    rw [← Option.some.inj this]
    rfl
  have := (C71_tuple_literal_iff demoParsers demoTupleItem _ d rfl hd ho).not.mpr (fun h => by
    have := h 0 _ _ "f" rfl withF_says (by simp) (by simp)
    simp at this)
  simpa using this

/-- `struct S { #[reflect(skip)] m: std::collections::HashMap<u8, u8> }` is refused. -/
example : derive demoParsers ⟨[], "S", [], .struct (.named [⟨[skipAttr], "m", .map (.scalar (.int .u8)) (.scalar (.int .u8)),
    ["std", "collections", "HashMap", "u8", "u8"]⟩])⟩ = none :=
  C71_skipped_hashmap_refused _ _ ⟨[skipAttr], "m", .map (.scalar (.int .u8)) (.scalar (.int .u8)),
    ["std", "collections", "HashMap", "u8", "u8"]⟩ (by simp [SItem.HasField, SFields.list]) (by decide)

/-- An enum with a skipped variant and `from_reflect_with` on another is accepted. -/
example : ∃ d, derive demoParsers ⟨[], "E", [], .enum [⟨[skipAttr], "A", .unit, []⟩,
    ⟨[withF], "B", .named [⟨[withF], "x", .scalar .bool, ["bool"]⟩], []⟩]⟩ = some d := by
  refine (C71_derive_accepts_iff _ _).mpr ⟨⟨[], .inl ⟨by simp, rfl⟩⟩, by rw [← mem_allIdents_iff]; decide, by simp, ?_, ?_⟩
  · intro f hf
    simp only [SItem.HasField, List.mem_cons, List.not_mem_nil, or_false, exists_eq_or_imp, SFields.list,
      false_or, exists_eq_left] at hf
    subst hf
    exact ⟨_, withF_says⟩
  · intro v hv
    simp only [List.mem_cons, List.not_mem_nil, or_false] at hv
    rcases hv with rfl | rfl
    · exact ⟨_, skipAttr_says⟩
    · exact ⟨_, withF_says⟩

end Mirror
