import Verif.Spec.SelfConv
import Verif.Lemmas.PatchSelf

set_option linter.unusedSimpArgs false

/-!
# Exactly which values convert to their own type
-/

namespace Mirror

theorem optAll_isSome_iff {α} {l : List (Option α)} :
    (optAll l).isSome = true ↔ ∀ x ∈ l, x.isSome = true := by
  induction l with
  | nil => simp [optAll]
  | cons x l ih =>
    cases x with
    | none => simp [optAll]
    | some a => simp [optAll, ← ih]

theorem convField_isSome {E : Env} {c : Bool} {t : Ty} {x : Obj} :
    (convField E c t x).isSome = true ↔
      (¬ (c = false ∧ x.typeOf = some t) → (fromReflect E t x).isSome = true) := by
  have hif : (!c && x.isTy t) = true ↔ c = false ∧ x.typeOf = some t := by simp [Obj.isTy]
  simp only [convField]
  by_cases h : c = false ∧ x.typeOf = some t
  · rw [if_pos (hif.mpr h)]; simp [h]
  · rw [if_neg (mt hif.mp h)]; simp only [h, not_false_eq_true, true_imp_iff]

theorem selfconv_isSome_iff {E : Env} (hD : DeclsOK E) {t : Ty} {o : Obj} (h : HasTy E t o) :
    (fromReflect E t o).isSome = true ↔ NoArrayMet E t o := by
  have named : ∀ {c : Bool} {fds : List FieldDef} {fs : List (String × Obj)} {src : Obj},
      (fds.map (·.name)).Nodup → fs.map (·.1) = fds.map (·.name) →
      (∀ (i : Nat) fd p, fds[i]? = some fd → fs[i]? = some p → fd.skip = false →
        HasTy E fd.ty p.2) →
      (∀ (i : Nat) fd p, fds[i]? = some fd → fs[i]? = some p → fd.skip = false →
        ((fromReflect E fd.ty p.2).isSome = true ↔ NoArrayMet E fd.ty p.2)) →
      (∀ n, src.field n = lookup n (visFields fs)) →
      ((optAll (fds.map (convNamed E c src))).isSome = true ↔
        ∀ (i : Nat) fd p, fds[i]? = some fd → fs[i]? = some p → fd.skip = false →
          ¬ (c = false ∧ p.2.typeOf = some fd.ty) → NoArrayMet E fd.ty p.2) := by
    intro c fds fs src hn h2 h4 ih hsrc
    have one : ∀ (i : Nat) fd p, fds[i]? = some fd → fs[i]? = some p → fd.skip = false →
        ((convNamed E c src fd).isSome = true ↔
          (¬ (c = false ∧ p.2.typeOf = some fd.ty) → NoArrayMet E fd.ty p.2)) := by
      intro i fd p hfd hp hs
      obtain ⟨p', hp', he⟩ := align_named' h2 hfd
      rw [hp] at hp'; cases hp'
      have hlk := lookup_vis_of_idx (h2 ▸ hn) hp (h4 i fd p hfd hp hs).not_hidden
      rw [← ih i fd p hfd hp hs, ← convField_isSome]
      simp [convNamed, hs, hsrc, he, hlk]
    rw [optAll_isSome_iff]
    constructor
    · intro h i fd p hfd hp hs
      exact (one i fd p hfd hp hs).mp (h _ (List.mem_map_of_mem (List.mem_of_getElem? hfd)))
    · intro h x hx
      obtain ⟨fd, hm, rfl⟩ := List.mem_map.mp hx
      cases hs : fd.skip with
      | true => simp [convNamed, hs]
      | false =>
        obtain ⟨i, hfd⟩ := List.getElem?_of_mem hm
        obtain ⟨p, hp, he⟩ := align_named' h2 hfd
        exact (one i fd p hfd hp hs).mpr (h i fd p hfd hp hs)
  have pos : ∀ {c : Bool} {fds : List FieldDef} {fs : List Obj} {src : Obj},
      fs.length = fds.length →
      (∀ (i : Nat) fd p, fds[i]? = some fd → fs[i]? = some p → fd.skip = false →
        HasTy E fd.ty p) →
      (∀ (i : Nat) fd p, fds[i]? = some fd → fs[i]? = some p → fd.skip = false →
        ((fromReflect E fd.ty p).isSome = true ↔ NoArrayMet E fd.ty p)) →
      (∀ i, src.fieldAt i = visAt fs i) →
      ((optAll (fds.mapIdx (convPos E c src))).isSome = true ↔
        ∀ (i : Nat) fd p, fds[i]? = some fd → fs[i]? = some p → fd.skip = false →
          ¬ (c = false ∧ p.typeOf = some fd.ty) → NoArrayMet E fd.ty p) := by
    intro c fds fs src hl h4 ih hsrc
    have one : ∀ (i : Nat) fd p, fds[i]? = some fd → fs[i]? = some p → fd.skip = false →
        ((convPos E c src i fd).isSome = true ↔
          (¬ (c = false ∧ p.typeOf = some fd.ty) → NoArrayMet E fd.ty p)) := by
      intro i fd p hfd hp hs
      rw [← ih i fd p hfd hp hs, ← convField_isSome]
      simp [convPos, hs, hsrc, visAt, hp, (h4 i fd p hfd hp hs).not_hidden]
    rw [optAll_isSome_iff]
    constructor
    · intro h i fd p hfd hp hs
      exact (one i fd p hfd hp hs).mp (h _ (List.mem_of_getElem? (i := i) (by simp [hfd])))
    · intro h x hx
      obtain ⟨i, hi⟩ := List.getElem?_of_mem hx
      simp only [List.getElem?_mapIdx] at hi
      obtain ⟨fd, hfd, rfl⟩ := Option.map_eq_some_iff.mp hi
      cases hs : fd.skip with
      | true => simp [convPos, hs]
      | false =>
        obtain ⟨p, hp⟩ := align_pos hl.symm hfd
        exact (one i fd p hfd hp hs).mpr (h i fd p hfd hp hs)
  induction h with
  | scalar s => simp [fromReflect_scalar, Obj.isTy, Obj.typeOf]; exact .scalar s
  | nonzero k n h => simp [fromReflect_nonzero, Obj.isTy, Obj.typeOf]; exact .nonzero k n
  | struct n fds c fs hd h2 h3 h4 ih =>
    rw [fromReflect_struct hd, if_pos (by rfl), Option.isSome_map,
      named (hD.struct_names n fds c hd) h2 h4 ih fun _ => rfl]
    constructor
    · exact .struct n fds c fs hd
    · intro h
      cases h with
      | struct _ fds' c' _ hd' h => rw [hd] at hd'; cases hd'; exact h
  | enumS n vds c vn fds fs hd hv h2 h3 h4 ih =>
    have hf : vds.find? (fun d => d.name = vn) = some _ :=
      find_variant (hD.variant_names n vds c hd) hv
    rw [fromReflect_enum hd]
    simp only [Obj.variantName, Option.bind_some, hf]
    rw [Option.isSome_map, named (hD.variant_fields n vds c vn fds hd hv) h2 h4 ih fun _ => rfl]
    constructor
    · exact .enumS n vds c vn fds fs hd hv
    · intro h
      cases h with
      | enumS _ vds' c' _ fds' _ hd' hv' h =>
        rw [hd] at hd'; cases hd'
        have hf' : vds.find? (fun d => d.name = vn) = some _ :=
          find_variant (hD.variant_names n vds c hd) hv'
        rw [hf] at hf'; cases hf'; exact h
  | tupleStruct n fds c fs hd h2 h3 h4 ih =>
    rw [fromReflect_tupleStruct hd, if_pos (by rfl), Option.isSome_map,
      pos h2 h4 ih fun _ => rfl]
    constructor
    · exact .tupleStruct n fds c fs hd
    · intro h
      cases h with
      | tupleStruct _ fds' c' _ hd' h => rw [hd] at hd'; cases hd'; exact h
  | enumT n vds c vn fds fs hd hv h2 h3 h4 ih =>
    have hf : vds.find? (fun d => d.name = vn) = some _ :=
      find_variant (hD.variant_names n vds c hd) hv
    rw [fromReflect_enum hd]
    simp only [Obj.variantName, Option.bind_some, hf]
    rw [Option.isSome_map, pos h2 h4 ih fun _ => rfl]
    constructor
    · exact .enumT n vds c vn fds fs hd hv
    · intro h
      cases h with
      | enumT _ vds' c' _ fds' _ hd' hv' h =>
        rw [hd] at hd'; cases hd'
        have hf' : vds.find? (fun d => d.name = vn) = some _ :=
          find_variant (hD.variant_names n vds c hd) hv'
        rw [hf] at hf'; cases hf'; exact h
  | enumU n vds c vn hd hv =>
    have hf : vds.find? (fun d => d.name = vn) = some _ :=
      find_variant (hD.variant_names n vds c hd) hv
    rw [fromReflect_enum hd]
    simp only [Obj.variantName, Option.bind_some, hf, Option.isSome_some, true_iff]
    exact .enumU n vn
  | tuple ts fs hl h ih =>
    rw [fromReflect_tuple, if_pos (by rfl), Option.isSome_map, optAll_isSome_iff]
    constructor
    · intro hh
      refine .tuple ts fs fun i t x ht hx => (ih i t x ht hx).mp ?_
      have := hh _ (List.mem_of_getElem? (i := i) (by rw [List.getElem?_mapIdx, ht]; rfl))
      simpa [Obj.fieldAt, visAt, hx, (h i t x ht hx).not_hidden] using this
    · intro hh x hx
      obtain ⟨i, hi⟩ := List.getElem?_of_mem hx
      simp only [List.getElem?_mapIdx] at hi
      obtain ⟨t, ht, rfl⟩ := Option.map_eq_some_iff.mp hi
      obtain ⟨p, hp⟩ := align_pos hl.symm ht
      cases hh with
      | tuple _ _ hh =>
        have := (ih i t p ht hp).mpr (hh i t p ht hp)
        simpa [Obj.fieldAt, visAt, hp, (h i t p ht hp).not_hidden] using this
  | vec t xs h ih =>
    rw [fromReflect_vec, Option.isSome_map, optAll_isSome_iff]
    constructor
    · intro hh
      exact .vec t xs fun x hx => (ih x hx).mp (hh _ (List.mem_map_of_mem hx))
    · intro hh x hx
      obtain ⟨y, hy, rfl⟩ := List.mem_map.mp hx
      cases hh with
      | vec _ _ hh => exact (ih y hy).mpr (hh y hy)
  | array t xs h ih =>
    have : fromReflect E (.array t xs.length) (.array t xs) = none := by
      rw [fromReflect]; intros; simp_all
    rw [this]
    constructor
    · intro hh; cases hh
    · intro hh; cases hh
  | map kt vt kvs hs hk hv ihk ihv =>
    rw [fromReflect_map, Option.isSome_map, optAll_isSome_iff]
    constructor
    · intro hh
      have : ∀ p ∈ kvs, (fromReflect E kt p.1).isSome = true ∧ (fromReflect E vt p.2).isSome = true := by
        intro p hp
        have := hh _ (List.mem_map_of_mem hp)
        cases h1 : fromReflect E kt p.1 with
        | none => simp [h1] at this
        | some a =>
          cases h2 : fromReflect E vt p.2 with
          | none => simp [h1, h2] at this
          | some b => simp
      exact .map kt vt kvs (fun p hp => (ihk p hp).mp (this p hp).1)
        fun p hp => (ihv p hp).mp (this p hp).2
    · intro hh x hx
      obtain ⟨p, hp, rfl⟩ := List.mem_map.mp hx
      cases hh with
      | map _ _ _ h1 h2 =>
        obtain ⟨a, ha⟩ := Option.isSome_iff_exists.mp ((ihk p hp).mpr (h1 p hp))
        obtain ⟨b, hb⟩ := Option.isSome_iff_exists.mp ((ihv p hp).mpr (h2 p hp))
        simp [ha, hb]
  | box t o _ ih =>
    rw [fromReflect_box]
    refine ih.trans ⟨.box t o, ?_⟩
    intro h; cases h with | box _ _ h => exact h
  | value v o h ho =>
    rw [fromReflect_value]; simp; exact .value _
  | structValue ns fs o h ho =>
    subst ho; rw [fromReflect_structValue h]; simp; exact .structValue _
  | tupleStructValue fs o h ho =>
    subst ho; rw [fromReflect_tupleStructValue h]; simp; exact .tupleStructValue _
  | tupleValue fs o h ho =>
    subst ho; rw [fromReflect_tupleValue h]; simp; exact .tupleValue _
  | enumValueS v ns fs o h ho =>
    subst ho; rw [fromReflect_enumValueS h]; simp; exact .enumValue _
  | enumValueT v fs o h ho =>
    subst ho; rw [fromReflect_enumValueT h]; simp; exact .enumValue _
  | enumValueU v o ho =>
    subst ho; rw [fromReflect_enumValueU]; simp; exact .enumValue _

end Mirror
