import Verif.Lemmas.PatchEq
import Verif.Lemmas.PatchSelfExact

set_option linter.unusedSimpArgs false

/-!
# Exactly when patching makes the contents equal
-/

namespace Mirror

theorem reset_kind (x : Obj) : x.reset.kind = x.kind := by
  cases x <;> simp [Obj.reset, Obj.kind]

theorem reset_variantName (x : Obj) : x.reset.variantName = x.variantName := by
  cases x <;> simp [Obj.reset, Obj.variantName]

theorem reset_typeOf (x : Obj) : x.reset.typeOf = x.typeOf := by
  cases x with
  | struct tag fs => cases tag <;> simp [Obj.reset, Obj.typeOf]
  | tupleStruct tag fs => cases tag <;> simp [Obj.reset, Obj.typeOf]
  | tuple tag fs => cases tag <;> simp [Obj.reset, Obj.typeOf]
  | enumS tag _ fs => cases tag <;> simp [Obj.reset, Obj.typeOf]
  | enumT tag _ fs => cases tag <;> simp [Obj.reset, Obj.typeOf]
  | enumU tag _ => cases tag <;> simp [Obj.reset, Obj.typeOf]
  | _ => simp [Obj.reset, Obj.typeOf]

/-- Fields of two values with the same tag have the same types. -/
def Alike (E : Env) (p q : Obj) : Prop :=
  (p.isHidden = true ∧ q.isHidden = true) ∨ (q.isHidden = false ∧ p.OK E ∧ q.OK E)

theorem alike_fields {E : Env} {fds : List FieldDef} {fx fy : List (String × Obj)}
    (nx : fx.map (·.1) = fds.map (·.name))
    (sx : ∀ (i : Nat) fd p, fds[i]? = some fd → fx[i]? = some p → fd.skip = true →
      p.2.isHidden = true)
    (tx : ∀ (i : Nat) fd p, fds[i]? = some fd → fx[i]? = some p → fd.skip = false →
      HasTy E fd.ty p.2)
    (sy : ∀ (i : Nat) fd p, fds[i]? = some fd → fy[i]? = some p → fd.skip = true →
      p.2.isHidden = true)
    (ty : ∀ (i : Nat) fd p, fds[i]? = some fd → fy[i]? = some p → fd.skip = false →
      HasTy E fd.ty p.2) (i : Nat) (p q) (hp : fx[i]? = some p) (hq : fy[i]? = some q) :
    Alike E p.2 q.2 := by
  obtain ⟨fd, hfd⟩ := align_pos (by simpa using congrArg List.length nx) hp
  cases hs : fd.skip with
  | true => exact .inl ⟨sx i fd p hfd hp hs, sy i fd q hfd hq hs⟩
  | false =>
    have := ty i fd q hfd hq hs
    exact .inr ⟨this.not_hidden, ⟨_, tx i fd p hfd hp hs⟩, ⟨_, this⟩⟩

theorem alike_pos {E : Env} {fds : List FieldDef} {fx fy : List Obj}
    (nx : fx.length = fds.length)
    (sx : ∀ (i : Nat) fd p, fds[i]? = some fd → fx[i]? = some p → fd.skip = true →
      p.isHidden = true)
    (tx : ∀ (i : Nat) fd p, fds[i]? = some fd → fx[i]? = some p → fd.skip = false →
      HasTy E fd.ty p)
    (sy : ∀ (i : Nat) fd p, fds[i]? = some fd → fy[i]? = some p → fd.skip = true →
      p.isHidden = true)
    (ty : ∀ (i : Nat) fd p, fds[i]? = some fd → fy[i]? = some p → fd.skip = false →
      HasTy E fd.ty p) (i : Nat) (p q) (hp : fx[i]? = some p) (hq : fy[i]? = some q) :
    Alike E p q := by
  obtain ⟨fd, hfd⟩ := align_pos nx hp
  cases hs : fd.skip with
  | true => exact .inl ⟨sx i fd p hfd hp hs, sy i fd q hfd hq hs⟩
  | false =>
    have := ty i fd q hfd hq hs
    exact .inr ⟨this.not_hidden, ⟨_, tx i fd p hfd hp hs⟩, ⟨_, this⟩⟩

theorem alike_toObj {E : Env} {v w : Value} (hv : v.WF) (hw : w.WF) : Alike E v.toObj w.toObj :=
  .inr ⟨w.toObj_not_hidden, hv.ok, hw.ok⟩

/-- Two structs with the same tag. -/
theorem alike_struct {E : Env} (hO : OrdLaws E) {tag : STag} {fx fy : List (String × Obj)}
    (hx : (Obj.struct tag fx).OK E) (hy : (Obj.struct tag fy).OK E) (i : Nat) (p q)
    (hp : fx[i]? = some p) (hq : fy[i]? = some q) : Alike E p.2 q.2 := by
  cases tag with
  | derived n =>
    cases OK.typed hO hx rfl with
    | struct _ fds c _ hd nx sx tx =>
      cases OK.typed hO hy rfl with
      | struct _ fds' c' _ hd' ny sy ty =>
        rw [hd] at hd'; cases hd'
        exact alike_fields nx sx tx sy ty i p q hp hq
  | dyn ns =>
    cases OK.typed hO hx rfl with
    | structValue ns1 fs1 _ hw1 ho1 =>
      cases OK.typed hO hy rfl with
      | structValue ns2 fs2 _ hw2 ho2 =>
        rw [Value.toObj] at ho1 ho2; cases ho1; cases ho2
        rw [List.getElem?_map] at hp hq
        obtain ⟨a, ha, rfl⟩ := Option.map_eq_some_iff.mp hp
        obtain ⟨b, hb, rfl⟩ := Option.map_eq_some_iff.mp hq
        cases hw1 with | struct _ _ _ _ h1 => ?_
        cases hw2 with | struct _ _ _ _ h2 => ?_
        exact alike_toObj (h1 a (List.mem_of_getElem? ha)) (h2 b (List.mem_of_getElem? hb))

theorem decl_variant_unique {E : Env} (hD : DeclsOK E) {n : String} {vds : List VariantDef} {c : Bool}
    (hd : E.decl n = some ⟨.enum vds, c⟩) {a b : VariantDef} (ha : a ∈ vds) (hb : b ∈ vds)
    (he : a.name = b.name) : a = b := by
  have hn := hD.variant_names n vds c hd
  have h1 := find_variant hn ha
  have h2 := find_variant hn hb
  rw [he, h2] at h1
  cases h1; rfl

theorem alike_enumS {E : Env} (hD : DeclsOK E) (hO : OrdLaws E) {tag : STag} {vn : String}
    {fx fy : List (String × Obj)} (hx : (Obj.enumS tag vn fx).OK E) (hy : (Obj.enumS tag vn fy).OK E)
    (i : Nat) (p q) (hp : fx[i]? = some p) (hq : fy[i]? = some q) : Alike E p.2 q.2 := by
  cases tag with
  | derived n =>
    cases OK.typed hO hx rfl with
    | enumS _ vds c _ fds _ hd hm nx sx tx =>
      cases OK.typed hO hy rfl with
      | enumS _ vds' c' _ fds' _ hd' hm' ny sy ty =>
        rw [hd] at hd'; cases hd'
        cases decl_variant_unique hD hd hm hm' rfl
        exact alike_fields nx sx tx sy ty i p q hp hq
  | dyn ns =>
    cases OK.typed hO hx rfl with
    | enumValueT v fs' _ hw ho => rw [Value.toObj] at ho; cases ho
    | enumValueU v _ ho => rw [Value.toObj] at ho; cases ho
    | enumValueS v1 ns1 fs1 _ hw1 ho1 =>
      cases OK.typed hO hy rfl with
      | enumValueT v fs' _ hw ho => rw [Value.toObj] at ho; cases ho
      | enumValueU v _ ho => rw [Value.toObj] at ho; cases ho
      | enumValueS v2 ns2 fs2 _ hw2 ho2 =>
        rw [Value.toObj] at ho1 ho2; cases ho1; cases ho2
        rw [List.getElem?_map] at hp hq
        obtain ⟨a, ha, rfl⟩ := Option.map_eq_some_iff.mp hp
        obtain ⟨b, hb, rfl⟩ := Option.map_eq_some_iff.mp hq
        cases hw1 with | enumS _ _ _ _ _ h1 => ?_
        cases hw2 with | enumS _ _ _ _ _ h2 => ?_
        exact alike_toObj (h1 a (List.mem_of_getElem? ha)) (h2 b (List.mem_of_getElem? hb))

theorem alike_enumT {E : Env} (hD : DeclsOK E) (hO : OrdLaws E) {tag : TSTag} {vn : String}
    {fx fy : List Obj} (hx : (Obj.enumT tag vn fx).OK E) (hy : (Obj.enumT tag vn fy).OK E)
    (i : Nat) (p q) (hp : fx[i]? = some p) (hq : fy[i]? = some q) : Alike E p q := by
  cases tag with
  | derived n =>
    cases OK.typed hO hx rfl with
    | enumT _ vds c _ fds _ hd hm nx sx tx =>
      cases OK.typed hO hy rfl with
      | enumT _ vds' c' _ fds' _ hd' hm' ny sy ty =>
        rw [hd] at hd'; cases hd'
        cases decl_variant_unique hD hd hm hm' rfl
        exact alike_pos nx sx tx sy ty i p q hp hq
  | dyn =>
    cases OK.typed hO hx rfl with
    | enumValueS v ns' fs' _ hw ho => rw [Value.toObj] at ho; cases ho
    | enumValueU v _ ho => rw [Value.toObj] at ho; cases ho
    | enumValueT v1 fs1 _ hw1 ho1 =>
      cases OK.typed hO hy rfl with
      | enumValueS v ns' fs' _ hw ho => rw [Value.toObj] at ho; cases ho
      | enumValueU v _ ho => rw [Value.toObj] at ho; cases ho
      | enumValueT v2 fs2 _ hw2 ho2 =>
        rw [Value.toObj] at ho1 ho2; cases ho1; cases ho2
        rw [List.getElem?_map] at hp hq
        obtain ⟨a, ha, rfl⟩ := Option.map_eq_some_iff.mp hp
        obtain ⟨b, hb, rfl⟩ := Option.map_eq_some_iff.mp hq
        cases hw1 with | enumT _ _ h1 => ?_
        cases hw2 with | enumT _ _ h2 => ?_
        exact alike_toObj (h1 a (List.mem_of_getElem? ha)) (h2 b (List.mem_of_getElem? hb))

theorem alike_tupleStruct {E : Env} (hO : OrdLaws E) {tag : TSTag}
    {fx fy : List Obj} (hx : (Obj.tupleStruct tag fx).OK E) (hy : (Obj.tupleStruct tag fy).OK E)
    (i : Nat) (p q) (hp : fx[i]? = some p) (hq : fy[i]? = some q) : Alike E p q := by
  cases tag with
  | derived n =>
    cases OK.typed hO hx rfl with
    | tupleStruct _ fds c _ hd nx sx tx =>
      cases OK.typed hO hy rfl with
      | tupleStruct _ fds' c' _ hd' ny sy ty =>
        rw [hd] at hd'; cases hd'
        exact alike_pos nx sx tx sy ty i p q hp hq
  | dyn =>
    cases OK.typed hO hx rfl with
    | tupleStructValue fs1 _ hw1 ho1 =>
      cases OK.typed hO hy rfl with
      | tupleStructValue fs2 _ hw2 ho2 =>
        rw [Value.toObj] at ho1 ho2; cases ho1; cases ho2
        rw [List.getElem?_map] at hp hq
        obtain ⟨a, ha, rfl⟩ := Option.map_eq_some_iff.mp hp
        obtain ⟨b, hb, rfl⟩ := Option.map_eq_some_iff.mp hq
        cases hw1 with | tupleStruct _ h1 => ?_
        cases hw2 with | tupleStruct _ h2 => ?_
        exact alike_toObj (h1 a (List.mem_of_getElem? ha)) (h2 b (List.mem_of_getElem? hb))

theorem alike_tuple {E : Env} (hO : OrdLaws E) {tag : TTag}
    {fx fy : List Obj} (hx : (Obj.tuple tag fx).OK E) (hy : (Obj.tuple tag fy).OK E)
    (i : Nat) (p q) (hp : fx[i]? = some p) (hq : fy[i]? = some q) : Alike E p q := by
  cases tag with
  | typed ts =>
    cases OK.typed hO hx rfl with
    | tuple _ _ nx tx =>
      cases OK.typed hO hy rfl with
      | tuple _ _ ny ty =>
        obtain ⟨t, ht⟩ := align_pos nx hp
        exact .inr ⟨(ty i t q ht hq).not_hidden, ⟨_, tx i t p ht hp⟩, ⟨_, ty i t q ht hq⟩⟩
  | dyn =>
    cases OK.typed hO hx rfl with
    | tupleValue fs1 _ hw1 ho1 =>
      cases OK.typed hO hy rfl with
      | tupleValue fs2 _ hw2 ho2 =>
        rw [Value.toObj] at ho1 ho2; cases ho1; cases ho2
        rw [List.getElem?_map] at hp hq
        obtain ⟨a, ha, rfl⟩ := Option.map_eq_some_iff.mp hp
        obtain ⟨b, hb, rfl⟩ := Option.map_eq_some_iff.mp hq
        cases hw1 with | tuple _ h1 => ?_
        cases hw2 with | tuple _ h2 => ?_
        exact alike_toObj (h1 a (List.mem_of_getElem? ha)) (h2 b (List.mem_of_getElem? hb))

/-- Named fields, one by one. -/
theorem patchNamed_iff {E : Env} {src : Obj} {fx fy : List (String × Obj)} {g : Obj → Obj}
    {F : Obj → Obj → Prop} (hF : ∀ d d', F (.hidden d) (.hidden d'))
    (hf : ∀ (i : Nat) q, fy[i]? = some q → q.2.isHidden = false → src.field q.1 = some (g q.2))
    (h : fx.map (·.1) = fy.map (·.1) → ∀ (i : Nat) p q, fx[i]? = some p → fy[i]? = some q →
      (p.2.isHidden = true ∧ q.2.isHidden = true) ∨
      (q.2.isHidden = false ∧ ((patch E p.2 (g q.2)).reset = q.2.reset ↔ F p.2 q.2))) :
    ((patchNamed E src fx).map fun p => (p.1, p.2.reset)) = (fy.map fun p => (p.1, p.2.reset)) ↔
      fx.map (·.1) = fy.map (·.1) ∧
      ∀ (i : Nat) p q, fx[i]? = some p → fy[i]? = some q → F p.2 q.2 := by
  have key : fx.map (·.1) = fy.map (·.1) → ∀ (i : Nat) p q, fx[i]? = some p → fy[i]? = some q →
      p.1 = q.1 ∧ ((patchO E p.2 (src.field p.1)).reset = q.2.reset ↔ F p.2 q.2) := by
    intro hn i p q hp hq
    have e1 : p.1 = q.1 := by
      have h1 := congrArg (·[i]?) hn
      simpa [hp, hq] using h1
    refine ⟨e1, ?_⟩
    rcases h hn i p q hp hq with ⟨h1, h2⟩ | ⟨h1, h2⟩
    · rw [patchO_of_hidden E h1]
      refine ⟨fun _ => ?_, fun _ => reset_hidden h1 h2⟩
      cases hp2 : p.2 <;> rw [hp2] at h1 <;> simp [Obj.isHidden] at h1
      cases hq2 : q.2 <;> rw [hq2] at h2 <;> simp [Obj.isHidden] at h2
      exact hF _ _
    · rw [e1, hf i q hq h1, patchO]; exact h2
  constructor
  · intro he
    have hn : fx.map (·.1) = fy.map (·.1) := by
      have := congrArg (List.map (·.1)) he
      simpa [patchNamed, Function.comp_def] using this
    refine ⟨hn, fun i p q hp hq => ?_⟩
    have h1 := congrArg (·[i]?) he
    simp only [patchNamed, List.map_map, List.getElem?_map, hp, hq, Option.map_some,
      Function.comp_apply, Option.some.injEq, Prod.mk.injEq] at h1
    exact ((key hn i p q hp hq).2).mp h1.2
  · rintro ⟨hn, hall⟩
    simp only [patchNamed, List.map_map, Function.comp_def]
    apply ext_idx (by simpa using congrArg List.length hn)
    intro i p q hp hq
    obtain ⟨e1, e2⟩ := key hn i p q hp hq
    rw [e2.mpr (hall i p q hp hq), e1]

/-- Positions, one by one. -/
theorem patchPos_iff {E : Env} {src : Obj} {fx fy : List Obj} {g : Obj → Obj}
    {F : Obj → Obj → Prop} (hF : ∀ d d', F (.hidden d) (.hidden d'))
    (hf : ∀ (i : Nat) q, fy[i]? = some q → q.isHidden = false → src.fieldAt i = some (g q))
    (h : fx.length = fy.length → ∀ (i : Nat) p q, fx[i]? = some p → fy[i]? = some q →
      (p.isHidden = true ∧ q.isHidden = true) ∨
      (q.isHidden = false ∧ ((patch E p (g q)).reset = q.reset ↔ F p q))) :
    ((patchPos E src fx).map fun p => p.reset) = (fy.map fun p => p.reset) ↔
      fx.length = fy.length ∧
      ∀ (i : Nat) p q, fx[i]? = some p → fy[i]? = some q → F p q := by
  have key : fx.length = fy.length → ∀ (i : Nat) p q, fx[i]? = some p → fy[i]? = some q →
      ((patchO E p (src.fieldAt i)).reset = q.reset ↔ F p q) := by
    intro hn i p q hp hq
    rcases h hn i p q hp hq with ⟨h1, h2⟩ | ⟨h1, h2⟩
    · rw [patchO_of_hidden E h1]
      refine ⟨fun _ => ?_, fun _ => reset_hidden h1 h2⟩
      cases p <;> simp [Obj.isHidden] at h1
      cases q <;> simp [Obj.isHidden] at h2
      exact hF _ _
    · rw [hf i q hq h1, patchO]; exact h2
  constructor
  · intro he
    have hn : fx.length = fy.length := by
      have := congrArg List.length he
      simpa [patchPos] using this
    refine ⟨hn, fun i p q hp hq => ?_⟩
    have h1 := congrArg (·[i]?) he
    simp only [patchPos, List.getElem?_map, List.getElem?_mapIdx, hp, hq, Option.map_some,
      Option.some.injEq] at h1
    exact (key hn i p q hp hq).mp h1
  · rintro ⟨hn, hall⟩
    apply ext_idx (by simp [patchPos, hn])
    intro i p q hp hq
    simp only [patchPos, List.getElem?_mapIdx] at hp
    obtain ⟨a, ha, rfl⟩ := Option.map_eq_some_iff.mp hp
    exact (key hn i a q ha hq).mpr (hall i a q ha hq)

theorem PatchFills.kind {E : Env} {x y : Obj} (h : PatchFills E x y) : y.kind = x.kind := by
  cases h with
  | cloned n _ _ h1 h2 => rw [h1, h2]
  | converted n _ _ h1 _ h3 => rw [h1, h3.1]
  | otherVariant _ _ h1 h2 => rw [h1, h2]
  | _ => rfl

theorem enum_type {E : Env} (hO : OrdLaws E) {x : Obj} (hk : x.kind = .enum) (hx : x.OK E) :
    x.typeOf = some .enumValue ∨ ∃ n vds c, x.typeOf = some (.named n) ∧
      E.decl n = some ⟨.enum vds, c⟩ := by
  cases x <;> simp only [Obj.kind, reduceCtorEq] at hk
  case enumS tag vn fs =>
    cases tag with
    | dyn ns => exact .inl rfl
    | derived n =>
      cases OK.typed hO hx rfl with
      | enumS _ vds c _ fds _ hd => exact .inr ⟨n, vds, c, rfl, hd⟩
  case enumT tag vn fs =>
    cases tag with
    | dyn => exact .inl rfl
    | derived n =>
      cases OK.typed hO hx rfl with
      | enumT _ vds c _ fds _ hd => exact .inr ⟨n, vds, c, rfl, hd⟩
  case enumU tag vn =>
    cases tag with
    | dyn => exact .inl rfl
    | derived n =>
      cases OK.typed hO hx rfl with
      | enumU _ vds c _ hd => exact .inr ⟨n, vds, c, rfl, hd⟩

theorem not_optOut {E : Env} {n : String} {x : Obj} (hk : x.kind = .enum)
    (ht : x.typeOf = some (.named n)) (h : ¬ x.optOutEnum E n) :
    (E.decl n).any (·.cloneOptOut) = false := by
  cases hd : E.decl n with
  | none => rfl
  | some d =>
    cases hcd : d.cloneOptOut with
    | true => exact absurd ⟨hk, ht, d, hd, hcd⟩ h
    | false => simp [hcd]

/-- Which entries of `gs` reach the entry of a map with the same keys. -/
theorem hits_same_keys {E : Env} (hD : DeclsOK E) (hO : OrdLaws E) (hK : KeysShown E) {kt : Ty}
    {gs : List (Obj × Obj)} (hs : BMSorted (E.kcmp kt) gs) (hk : ∀ p ∈ gs, HasTy E kt p.1)
    {q : Obj × Obj} (hq : q ∈ gs) {k : Obj} (hkt : HasTy E kt k) (he : k.reset = q.1.reset) :
    hits E kt k gs = if (fromReflect E kt q.1).isSome = true then [q.2] else [] := by
  have hkq : E.kcmp kt k q.1 = .eq := hK kt _ _ hkt (hk q hq) (by
    rw [← toValue_reset k, ← toValue_reset q.1, he, Value.cmp_self])
  have conv : ∀ r ∈ gs, ∀ k', fromReflect E kt r.1 = some k' →
      HasTy E kt k' ∧ E.kcmp kt r.1 k' = .eq := by
    intro r hr k' hk'
    have h1 := selfconv_sound hD hO hK (hk r hr) hk'
    have hty := fromReflect_sound hO kt r.1 ⟨_, hk r hr⟩ hk'
    exact ⟨hty, hK kt _ _ (hk r hr) hty (by
      rw [← toValue_reset r.1, ← toValue_reset k', h1, Value.cmp_self])⟩
  have only : ∀ r ∈ gs, (((fromReflect E kt r.1).bind fun k' =>
      if E.kcmp kt k' k = .eq then some r.2 else none).isSome = true) → r = q := by
    intro r hr hsome
    obtain ⟨w, hw⟩ := Option.isSome_iff_exists.mp hsome
    obtain ⟨k', hk', hw⟩ := Option.bind_eq_some_iff.mp hw
    split at hw
    · next hc =>
      rw [← (hO.cmpOn kt).eq_trans _ _ _ (hk r hr) (conv r hr k' hk').1 hkt
        (conv r hr k' hk').2] at hc
      have hc' := (hO.cmpOn kt).eq_symm (hk r hr) hkt hc
      have h3 := (hO.cmpOn kt).eq_trans k r.1 q.1 hkt (hk r hr) (hk q hq) hc'
      rw [hkq] at h3
      exact sorted_key_unique (hO.cmpOn kt) hk hs hr hq h3.symm
    · cases hw
  cases hf : fromReflect E kt q.1 with
  | none =>
    rw [if_neg (by simp), hits, List.filterMap_eq_nil_iff]
    intro r hr
    cases hfr : (fromReflect E kt r.1).bind fun k' =>
        if E.kcmp kt k' k = .eq then some r.2 else none with
    | none => rfl
    | some w =>
      have := only r hr (by rw [hfr]; rfl)
      subst this
      rw [hf] at hfr; cases hfr
  | some k' =>
    rw [if_pos (by rfl)]
    apply filterMap_unique (sorted_nodup hO hs hk) hq _ only
    have h1 := (hO.cmpOn kt).eq_symm (hk q hq) (conv q hq k' hf).1 (conv q hq k' hf).2
    have h2 := (hO.cmpOn kt).eq_trans _ _ _ (conv q hq k' hf).1 (hk q hq) hkt h1
    rw [hf, Option.bind_some, if_pos]
    rw [h2]; exact (hO.cmpOn kt).eq_symm hkt (hk q hq) hkq

/-- Exactly when patching with `y` makes the shown content that of `y`. -/
theorem patch_fills_iff {E : Env} (hD : DeclsOK E) (hO : OrdLaws E) (hK : KeysShown E) (x : Obj) :
    ∀ y : Obj, x.OK E → y.OK E → ((patch E x y).reset = y.reset ↔ PatchFills E x y) := by
  induction x using Obj.ind with
  | h x ih =>
    intro y hx hy
    by_cases hk : y.kind = x.kind
    rotate_left
    · rw [patch_other_kind hO hx hy hk]
      constructor
      · intro he
        have := congrArg Obj.kind he
        rw [reset_kind, reset_kind] at this
        exact absurd this.symm hk
      · intro h; exact absurd h.kind hk
    have ndx := OK.named_nodup hD hO hx
    have ndy := OK.named_nodup hD hO hy
    have named : ∀ {fx fy : List (String × Obj)} {src : Obj}, (fy.map (·.1)).Nodup →
        (∀ p ∈ fx, sizeOf p.2 < sizeOf x) → (∀ n, src.field n = lookup n (visFields fy)) →
        (∀ (i : Nat) p q, fx[i]? = some p → fy[i]? = some q → Alike E p.2 q.2) →
        (((patchNamed E src fx).map fun p => (p.1, p.2.reset)) = (fy.map fun p => (p.1, p.2.reset)) ↔
          fx.map (·.1) = fy.map (·.1) ∧
          ∀ (i : Nat) p q, fx[i]? = some p → fy[i]? = some q → PatchFills E p.2 q.2) := by
      intro fx fy src hn hsz hf hal
      apply patchNamed_iff (g := id) (fun _ _ => .hidden _ _)
      · intro i q hq hh
        have hnv : ((visFields fy).map (·.1)).Nodup := hn.sublist (List.filter_sublist.map _)
        rw [hf]
        exact lookup_of_mem_nodup hnv (List.mem_filter.mpr ⟨List.mem_of_getElem? hq, by simp [hh]⟩)
      · intro _ i p q hp hq
        rcases hal i p q hp hq with h | ⟨h1, h2, h3⟩
        · exact .inl h
        · exact .inr ⟨h1, ih p.2 (hsz p (List.mem_of_getElem? hp)) q.2 h2 h3⟩
    have posn : ∀ {fx fy : List Obj} {src : Obj},
        (∀ p ∈ fx, sizeOf p < sizeOf x) →
        (∀ (i : Nat) q, fy[i]? = some q → q.isHidden = false → src.fieldAt i = some q) →
        (∀ (i : Nat) p q, fx[i]? = some p → fy[i]? = some q → Alike E p q) →
        (((patchPos E src fx).map fun p => p.reset) = (fy.map fun p => p.reset) ↔
          fx.length = fy.length ∧
          ∀ (i : Nat) p q, fx[i]? = some p → fy[i]? = some q → PatchFills E p q) := by
      intro fx fy src hsz hf hal
      apply patchPos_iff (g := id) (fun _ _ => .hidden _ _) hf
      intro _ i p q hp hq
      rcases hal i p q hp hq with h | ⟨h1, h2, h3⟩
      · exact .inl h
      · exact .inr ⟨h1, ih p (hsz p (List.mem_of_getElem? hp)) q h2 h3⟩
    have fields : x.kind = .enum → x.variantName = y.variantName → x.typeOf = y.typeOf →
        (∀ n, y.typeOf = some (.named n) → y.optOutEnum E n ∧ fromReflect E (.named n) y = none) →
        ((patchFields E y x).reset = y.reset ↔ PatchFills E x y) := by
      intro hkx hvn hty hconv
      have inv : ∀ {P : Prop}, PatchFills E x y →
          (∀ tag vn fs gs, x = .enumS tag vn fs → y = .enumS tag vn gs →
            fs.map (·.1) = gs.map (·.1) → (∀ (i : Nat) p q, fs[i]? = some p → gs[i]? = some q →
              PatchFills E p.2 q.2) → P) →
          (∀ tag vn fs gs, x = .enumT tag vn fs → y = .enumT tag vn gs →
            fs.length = gs.length → (∀ (i : Nat) p q, fs[i]? = some p → gs[i]? = some q →
              PatchFills E p q) → P) →
          (∀ tag vn, x = .enumU tag vn → y = .enumU tag vn → P) → P := by
        intro P h h1 h2 h3
        cases h with
        | cloned n _ _ _ _ _ ht hno => exact absurd (hconv n ht).1 hno
        | converted n _ _ _ _ ho hc =>
          rw [(hconv n ho.2.1).2] at hc; cases hc
        | otherVariant _ _ _ _ _ _ hne => exact absurd hvn hne
        | enumS tag vn fs gs a b => exact h1 tag vn fs gs rfl rfl a b
        | enumT tag vn fs gs a b => exact h2 tag vn fs gs rfl rfl a b
        | enumU tag vn => exact h3 tag vn rfl rfl
        | scalar => simp [Obj.kind] at hkx
        | nonzero => simp [Obj.kind] at hkx
        | hidden => simp [Obj.kind] at hkx
        | struct => simp [Obj.kind] at hkx
        | tupleStruct => simp [Obj.kind] at hkx
        | tuple => simp [Obj.kind] at hkx
        | vec => simp [Obj.kind] at hkx
        | array => simp [Obj.kind] at hkx
        | map => simp [Obj.kind] at hkx
      constructor
      · intro he
        cases x <;> simp only [Obj.kind, reduceCtorEq] at hkx
        case enumS tag vn fs =>
          rw [patchFields, Obj.reset] at he
          cases y <;> rw [Obj.reset] at he <;> try (cases he; done)
          rename_i tag' vn' gs
          injection he with e1 e2 e3
          subst e1 e2
          obtain ⟨a, b⟩ := (named (ndy.2 _ _ _ rfl)
            (fun p hp => by have := sizeOf_snd_lt_of_mem hp; simp; omega) (fun _ => rfl)
            (alike_enumS hD hO hx hy)).mp e3
          exact .enumS _ _ _ _ a b
        case enumT tag vn fs =>
          rw [patchFields, Obj.reset] at he
          cases y <;> rw [Obj.reset] at he <;> try (cases he; done)
          rename_i tag' vn' gs
          injection he with e1 e2 e3
          subst e1 e2
          obtain ⟨a, b⟩ := (posn (src := .enumT tag vn gs)
            (fun p hp => by have := List.sizeOf_lt_of_mem hp; simp; omega)
            (fun i q hq hh => visAt_some hq hh) (alike_enumT hD hO hx hy)).mp e3
          exact .enumT _ _ _ _ a b
        case enumU tag vn =>
          rw [patchFields, Obj.reset] at he
          · cases y <;> rw [Obj.reset] at he <;> cases he
            exact .enumU _ _
          · intros; contradiction
          · intros; contradiction
      · intro h
        refine inv h ?_ ?_ ?_
        · rintro tag vn fs gs rfl rfl a b
          rw [patchFields, Obj.reset, Obj.reset, (named (ndy.2 _ _ _ rfl)
            (fun p hp => by have := sizeOf_snd_lt_of_mem hp; simp; omega) (fun _ => rfl)
            (alike_enumS hD hO hx hy)).mpr ⟨a, b⟩]
        · rintro tag vn fs gs rfl rfl a b
          rw [patchFields, Obj.reset, Obj.reset, (posn (src := .enumT tag vn gs)
            (fun p hp => by have := List.sizeOf_lt_of_mem hp; simp; omega)
            (fun i q hq hh => visAt_some hq hh) (alike_enumT hD hO hx hy)).mpr ⟨a, b⟩]
        · rintro tag vn rfl rfl
          rfl
    have enum : x.kind = .enum → ((patch E x y).reset = y.reset ↔ PatchFills E x y) := by
      intro hkx
      have hky : y.kind = .enum := hk.trans hkx
      have same : PatchFills E x y → x.typeOf = y.typeOf := by
        intro h
        cases h with
        | cloned n _ _ _ _ h1 h2 => rw [h1, h2]
        | converted n _ _ _ h1 h2 => rw [h1, h2.2.1]
        | otherVariant _ _ _ _ h1 h2 => rw [h1, h2]
        | enumS tag => cases tag <;> rfl
        | enumT tag => cases tag <;> rfl
        | enumU tag => cases tag <;> rfl
        | _ => simp [Obj.kind] at hkx
      have samet : (patch E x y).reset = y.reset → x.typeOf = y.typeOf := by
        intro he
        have h1 := congrArg Obj.typeOf he
        rw [reset_typeOf, reset_typeOf] at h1
        rw [← h1]
        obtain ⟨T, hT⟩ : ∃ T, x.typeOf = some T := by
          rcases enum_type hO hkx hx with h | ⟨n, _, _, h, _⟩ <;> exact ⟨_, h⟩
        have h2 := patch_hasTy hO y hy (OK.typed hO hx hT)
        rcases enum_type hO hkx hx with h | ⟨n, vds, c, h, hd⟩
        · rw [h] at hT; cases hT
          rw [h]
          cases h2 with
          | enumValueS v ns fs _ _ ho => rw [ho, Value.toObj]; rfl
          | enumValueT v fs _ _ ho => rw [ho, Value.toObj]; rfl
          | enumValueU v _ ho => rw [ho, Value.toObj]; rfl
        · rw [h] at hT; cases hT
          rw [h, (enum_typeOf hd h2).2]
      by_cases hty : x.typeOf = y.typeOf
      rotate_left
      · exact ⟨fun h => absurd (samet h) hty, fun h => absurd (same h) hty⟩
      rcases enum_type hO hkx hx with ht | ⟨n, vds, c, ht, hd⟩
      · have hty' := hty.symm.trans ht
        rw [patch_enum_dyn E hkx ht, if_pos hky]
        by_cases hv : y.variantName = x.variantName
        · rw [if_pos hv]
          exact fields hkx hv.symm hty fun n hn => by rw [hty'] at hn; cases hn
        · rw [if_neg hv]
          refine ⟨fun _ => .otherVariant _ _ hkx hky ht hty' (fun e => hv e.symm), fun _ => ?_⟩
          obtain ⟨z, hz⟩ := fromReflect_enumValue_some E hky
          rw [hz]
          exact selfconv_sound hD hO hK (OK.typed hO hy hty') hz
      · have hty' := hty.symm.trans ht
        have his : y.isTy (.named n) = true := by simp [Obj.isTy, hty']
        rw [patch_enum_derived E hkx ht, his, Bool.true_and]
        by_cases ho : y.optOutEnum E n
        · have hc : (E.decl n).any (·.cloneOptOut) = true := by
            obtain ⟨_, _, d, hd, hc⟩ := ho; simp [hd, hc]
          rw [hc, if_neg (by simp), if_pos hky]
          cases hf : fromReflect E (.named n) y with
          | some z =>
            refine ⟨fun _ => .converted n _ _ hkx ht ho (by rw [hf]; rfl), fun _ => ?_⟩
            exact selfconv_sound hD hO hK (OK.typed hO hy hty') hf
          | none =>
            have hcv : ∀ m, y.typeOf = some (.named m) →
                y.optOutEnum E m ∧ fromReflect E (.named m) y = none := by
              intro m hm
              rw [hty'] at hm; cases hm
              exact ⟨ho, hf⟩
            simp only
            by_cases hv : y.variantName = x.variantName
            · rw [if_pos hv]
              exact fields hkx hv.symm hty hcv
            · rw [if_neg hv]
              constructor
              · intro he
                have := congrArg Obj.variantName he
                rw [reset_variantName, reset_variantName] at this
                exact absurd this.symm hv
              · intro h
                exfalso
                cases h with
                | cloned m _ _ _ _ _ h2 hno => exact hno (hcv m h2).1
                | converted m _ _ _ _ h2 h3 => rw [(hcv m h2.2.1).2] at h3; cases h3
                | otherVariant _ _ _ _ h1 h2 => rw [hty'] at h2; cases h2
                | enumS => exact hv rfl
                | enumT => exact hv rfl
                | enumU => exact hv rfl
                | _ => simp [Obj.kind] at hkx
        · rw [not_optOut hky hty' ho, if_pos (by rfl)]
          exact ⟨fun _ => .cloned n _ _ hkx hky ht hty' ho, fun _ => rfl⟩
    cases x with
    | hidden d => obtain ⟨T, hT⟩ := hx; exact absurd hT.not_hidden (by simp [Obj.isHidden])
    | enumS => exact enum rfl
    | enumT => exact enum rfl
    | enumU => exact enum rfl
    | scalar s =>
      rw [patch_scalar]
      cases y <;> simp only [Obj.kind, reduceCtorEq] at hk
      case scalar s' =>
        by_cases hs : s.kind = s'.kind
        · rw [if_pos (by simp [Obj.isTy, Obj.typeOf, hs])]
          exact ⟨fun _ => .scalar _ _ hs, fun _ => rfl⟩
        · rw [if_neg (by simp [Obj.isTy, Obj.typeOf]; exact fun e => hs e.symm)]
          constructor
          · intro he
            rw [Obj.reset, Obj.reset] at he; cases he; exact absurd rfl hs
          · intro h
            cases h with
            | scalar _ _ h => exact absurd h hs
            | cloned _ _ _ h => simp [Obj.kind] at h
            | converted _ _ _ h => simp [Obj.kind] at h
            | otherVariant _ _ h => simp [Obj.kind] at h
      case nonzero k n =>
        rw [if_neg (by simp [Obj.isTy, Obj.typeOf])]
        constructor
        · intro he; rw [Obj.reset, Obj.reset] at he; cases he
        · intro h
          cases h with
          | cloned _ _ _ h => simp [Obj.kind] at h
          | converted _ _ _ h => simp [Obj.kind] at h
          | otherVariant _ _ h => simp [Obj.kind] at h
    | nonzero k m =>
      rw [patch_nonzero]
      cases y <;> simp only [Obj.kind, reduceCtorEq] at hk
      case scalar s =>
        constructor
        · intro he
          exfalso
          cases hf : fromReflect E (.nonzero k) (.scalar s) with
          | none => rw [hf] at he; simp [Obj.reset] at he
          | some z =>
            rw [hf] at he
            cases fromReflect_sound hO _ _ hy hf
            simp [Obj.reset] at he
        · intro h
          cases h with
          | cloned _ _ _ h => simp [Obj.kind] at h
          | converted _ _ _ h => simp [Obj.kind] at h
          | otherVariant _ _ h => simp [Obj.kind] at h
      case nonzero k' n =>
        rw [fromReflect_nonzero]
        by_cases hkk : k' = k
        · subst hkk
          refine ⟨fun _ => .nonzero _ _ _, fun _ => ?_⟩
          simp [Obj.isTy, Obj.typeOf]
        · constructor
          · intro he
            simp [Obj.isTy, Obj.typeOf, hkk, Obj.reset] at he
            exact absurd he.1.symm hkk
          · intro h
            cases h with
            | nonzero => exact absurd rfl hkk
            | cloned _ _ _ h => simp [Obj.kind] at h
            | converted _ _ _ h => simp [Obj.kind] at h
            | otherVariant _ _ h => simp [Obj.kind] at h
    | struct tag fs =>
      rw [patch_struct, if_pos (by exact hk)]
      cases y <;> simp only [Obj.kind, reduceCtorEq] at hk
      rename_i tag' gs
      rw [Obj.reset, Obj.reset]
      constructor
      · intro he
        injection he with e1 e2
        subst e1
        obtain ⟨a, b⟩ := (named (ndy.1 _ _ rfl)
          (fun p hp => by have := sizeOf_snd_lt_of_mem hp; simp; omega) (fun _ => rfl)
          (alike_struct hO hx hy)).mp e2
        exact .struct _ _ _ a b
      · intro h
        cases h with
        | struct _ _ _ a b =>
          rw [(named (ndy.1 _ _ rfl)
            (fun p hp => by have := sizeOf_snd_lt_of_mem hp; simp; omega) (fun _ => rfl)
            (alike_struct hO hx hy)).mpr ⟨a, b⟩]
        | cloned _ _ _ h => simp [Obj.kind] at h
        | converted _ _ _ h => simp [Obj.kind] at h
        | otherVariant _ _ h => simp [Obj.kind] at h
    | tupleStruct tag fs =>
      rw [patch_tupleStruct, if_pos (by exact hk)]
      cases y <;> simp only [Obj.kind, reduceCtorEq] at hk
      rename_i tag' gs
      rw [Obj.reset, Obj.reset]
      constructor
      · intro he
        injection he with e1 e2
        subst e1
        obtain ⟨a, b⟩ := (posn (src := .tupleStruct tag gs)
          (fun p hp => by have := List.sizeOf_lt_of_mem hp; simp; omega)
          (fun i q hq hh => visAt_some hq hh) (alike_tupleStruct hO hx hy)).mp e2
        exact .tupleStruct _ _ _ a b
      · intro h
        cases h with
        | tupleStruct _ _ _ a b =>
          rw [(posn (src := .tupleStruct tag gs)
            (fun p hp => by have := List.sizeOf_lt_of_mem hp; simp; omega)
            (fun i q hq hh => visAt_some hq hh) (alike_tupleStruct hO hx hy)).mpr ⟨a, b⟩]
        | cloned _ _ _ h => simp [Obj.kind] at h
        | converted _ _ _ h => simp [Obj.kind] at h
        | otherVariant _ _ h => simp [Obj.kind] at h
    | tuple tag fs =>
      rw [patch_tuple, if_pos (by exact hk)]
      cases y <;> simp only [Obj.kind, reduceCtorEq] at hk
      rename_i tag' gs
      rw [Obj.reset, Obj.reset]
      constructor
      · intro he
        injection he with e1 e2
        subst e1
        obtain ⟨a, b⟩ := (posn (src := .tuple tag gs)
          (fun p hp => by have := List.sizeOf_lt_of_mem hp; simp; omega)
          (fun i q hq hh => visAt_some hq hh) (alike_tuple hO hx hy)).mp e2
        exact .tuple _ _ _ a b
      · intro h
        cases h with
        | tuple _ _ _ a b =>
          rw [(posn (src := .tuple tag gs)
            (fun p hp => by have := List.sizeOf_lt_of_mem hp; simp; omega)
            (fun i q hq hh => visAt_some hq hh) (alike_tuple hO hx hy)).mpr ⟨a, b⟩]
        | cloned _ _ _ h => simp [Obj.kind] at h
        | converted _ _ _ h => simp [Obj.kind] at h
        | otherVariant _ _ h => simp [Obj.kind] at h
    | vec t fs =>
      rw [patch_vec, if_pos (by exact hk)]
      cases y <;> simp only [Obj.kind, reduceCtorEq] at hk
      rename_i t' gs
      rw [Obj.reset, Obj.reset]
      have al : ∀ (i : Nat) p q, fs[i]? = some p → gs[i]? = some q → Alike E p q := by
        intro i p q hp hq
        have h2 := hy.parts (x := q) (List.mem_of_getElem? hq)
        obtain ⟨T, hT⟩ := h2
        exact .inr ⟨hT.not_hidden, hx.parts (x := p) (List.mem_of_getElem? hp), ⟨T, hT⟩⟩
      have key := posn (src := Obj.vec t' gs)
          (fun p hp => by have := List.sizeOf_lt_of_mem hp; simp; omega)
          (fun i q hq hh => hq) al
      constructor
      · intro he
        injection he with e1 e2
        subst e1
        obtain ⟨a, b⟩ := key.mp e2
        exact .vec _ _ _ a b
      · intro h
        cases h with
        | vec _ _ _ a b => rw [key.mpr ⟨a, b⟩]
        | cloned _ _ _ h => simp [Obj.kind] at h
        | converted _ _ _ h => simp [Obj.kind] at h
        | otherVariant _ _ h => simp [Obj.kind] at h
    | array t fs =>
      rw [patch_array, if_pos (by exact hk)]
      cases y <;> simp only [Obj.kind, reduceCtorEq] at hk
      rename_i t' gs
      rw [Obj.reset, Obj.reset]
      have al : ∀ (i : Nat) p q, fs[i]? = some p → gs[i]? = some q → Alike E p q := by
        intro i p q hp hq
        have h2 := hy.parts (x := q) (List.mem_of_getElem? hq)
        obtain ⟨T, hT⟩ := h2
        exact .inr ⟨hT.not_hidden, hx.parts (x := p) (List.mem_of_getElem? hp), ⟨T, hT⟩⟩
      have key := posn (src := Obj.array t' gs)
          (fun p hp => by have := List.sizeOf_lt_of_mem hp; simp; omega)
          (fun i q hq hh => hq) al
      constructor
      · intro he
        injection he with e1 e2
        subst e1
        obtain ⟨a, b⟩ := key.mp e2
        exact .array _ _ _ a b
      · intro h
        cases h with
        | array _ _ _ a b => rw [key.mpr ⟨a, b⟩]
        | cloned _ _ _ h => simp [Obj.kind] at h
        | converted _ _ _ h => simp [Obj.kind] at h
        | otherVariant _ _ h => simp [Obj.kind] at h
    | map kt vt fs =>
      cases y <;> simp only [Obj.kind, reduceCtorEq] at hk
      rename_i kt' vt' gs
      cases OK.typed hO hx rfl with
      | map _ _ _ hs1 hk1 hv1 =>
      cases OK.typed hO hy rfl with
      | map _ _ _ hs2 hk2 hv2 =>
      rw [patch_map, patchEntries_eq hO gs (fun p hp => ⟨_, hk2 p hp⟩) _ hs1 hk1, Obj.reset, Obj.reset,
        List.map_map]
      simp only [Function.comp_def]
      have key : kt = kt' → ∀ (i : Nat) p q, fs[i]? = some p → gs[i]? = some q →
          p.1.reset = q.1.reset → patchSeq E p.2 (hits E kt p.1 gs) =
            if (fromReflect E kt q.1).isSome = true then patch E p.2 q.2 else p.2 := by
        rintro rfl i p q hp hq he
        rw [hits_same_keys hD hO hK hs2 hk2 (List.mem_of_getElem? hq)
          (hk1 p (List.mem_of_getElem? hp)) he]
        split <;> rfl
      have ihv : ∀ (i : Nat) p q, fs[i]? = some p → gs[i]? = some q →
          ((patch E p.2 q.2).reset = q.2.reset ↔ PatchFills E p.2 q.2) := by
        intro i p q hp hq
        have hpm := List.mem_of_getElem? hp
        exact ih p.2 (by have := sizeOf_snd_lt_of_mem hpm; simp; omega) q.2 ⟨_, hv1 p hpm⟩
          ⟨_, hv2 q (List.mem_of_getElem? hq)⟩
      constructor
      · intro he
        injection he with e1 e2 e3
        subst e1 e2
        have hlen : fs.length = gs.length := by simpa using congrArg List.length e3
        have hent : ∀ (i : Nat) p q, fs[i]? = some p → gs[i]? = some q →
            p.1.reset = q.1.reset ∧ (patchSeq E p.2 (hits E kt p.1 gs)).reset = q.2.reset := by
          intro i p q hp hq
          have h1 := congrArg (·[i]?) e3
          simp only [List.getElem?_map, hp, hq, Option.map_some, Option.some.injEq,
            Prod.mk.injEq] at h1
          exact h1
        refine .map _ _ _ _ hlen (fun i p q hp hq => (hent i p q hp hq).1) ?_ ?_
        · intro i p q hp hq hc
          obtain ⟨h1, h2⟩ := hent i p q hp hq
          rw [key rfl i p q hp hq h1, if_pos hc] at h2
          exact (ihv i p q hp hq).mp h2
        · intro i p q hp hq hc
          obtain ⟨h1, h2⟩ := hent i p q hp hq
          rw [key rfl i p q hp hq h1, if_neg (by simp [hc])] at h2
          exact h2
      · intro h
        cases h with
        | map _ _ _ _ hlen h1 h2 h3 =>
          congr 1
          apply ext_idx hlen
          intro i p q hp hq
          have hk' := h1 i p q hp hq
          rw [key rfl i p q hp hq hk', hk']
          congr 1
          split
          · next hc => exact (ihv i p q hp hq).mpr (h2 i p q hp hq hc)
          · next hc => exact h3 i p q hp hq (by simpa using hc)
        | cloned _ _ _ h => simp [Obj.kind] at h
        | converted _ _ _ h => simp [Obj.kind] at h
        | otherVariant _ _ h => simp [Obj.kind] at h

end Mirror
