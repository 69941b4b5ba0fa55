import Verif.Lemmas.Versions
import Verif.Lemmas.PatchSelfExact
import Verif.Spec.WriteBack

set_option linter.unusedSimpArgs false

/-!
# Patching a value with something that only repeats what it holds
-/

namespace Mirror

theorem Obj.reset_hidden {x : Obj} (h : x.isHidden = true) : x.reset = .hidden 0 := by
  cases x <;> simp [Obj.isHidden] at h
  rw [Obj.reset]

/-! ## Between values -/

theorem value_vec {E : Env} {t : Ty} {xs : List Obj} (h : HasTy E .value (.vec t xs)) :
    t = .value ∧ ∀ x ∈ xs, HasTy E .value x := by
  obtain ⟨v, hv, he⟩ := h.value_inv
  cases v <;> rw [Value.toObj] at he <;> cases he
  next ws =>
    cases hv with
    | list _ hw =>
      refine ⟨rfl, fun x hx => ?_⟩
      obtain ⟨w, hw', rfl⟩ := List.mem_map.mp hx
      exact .value w _ (hw w hw') rfl

theorem value_map {E : Env} (hO : OrdLaws E) {kt vt : Ty} {kvs : List (Obj × Obj)} (h : HasTy E .value (.map kt vt kvs)) :
    kt = .value ∧ vt = .value ∧ BMSorted (E.kcmp .value) kvs ∧
      (∀ p ∈ kvs, HasTy E .value p.1) ∧ (∀ p ∈ kvs, HasTy E .value p.2) := by
  have h1 := OK_map_parts hO ⟨_, h⟩
  obtain ⟨v, hv, he⟩ := h.value_inv
  cases v <;> rw [Value.toObj] at he <;> cases he
  exact ⟨rfl, rfl, h1⟩

/-- Something that only repeats what a `Value` holds is that `Value`. -/
theorem echo_value {E : Env} (hO : OrdLaws E) {x v : Obj} (h : Echo x v) (hx : HasTy E .value x)
    (hv : HasTy E .value v) : v = x := by
  induction h with
  | same x => exact copied_self hx
  | struct n fs v hk _ _ =>
    obtain ⟨w, _, he⟩ := hx.value_inv
    cases w <;> rw [Value.toObj] at he <;> cases he
  | tupleStruct n fs v hk _ _ =>
    obtain ⟨w, _, he⟩ := hx.value_inv
    cases w <;> rw [Value.toObj] at he <;> cases he
  | tuple n fs v hk _ _ =>
    obtain ⟨w, _, he⟩ := hx.value_inv
    cases w <;> rw [Value.toObj] at he <;> cases he
  | enumS n vn fs v hk _ _ =>
    obtain ⟨w, _, he⟩ := hx.value_inv
    cases w <;> rw [Value.toObj] at he <;> cases he
  | enumT n vn fs v hk _ _ =>
    obtain ⟨w, _, he⟩ := hx.value_inv
    cases w <;> rw [Value.toObj] at he <;> cases he
  | enumU n vn v hk =>
    obtain ⟨w, _, he⟩ := hx.value_inv
    cases w <;> rw [Value.toObj] at he <;> cases he
  | vec t xs u ws hl _ ih =>
    obtain ⟨rfl, h1⟩ := value_vec hx
    obtain ⟨rfl, h2⟩ := value_vec hv
    congr 1
    apply List.ext_getElem?
    intro i
    cases hy : xs[i]? with
    | none => rw [List.getElem?_eq_none_iff] at hy ⊢; omega
    | some y =>
      obtain ⟨w, hw⟩ : ∃ w, ws[i]? = some w := by
        have := (List.getElem?_eq_some_iff.mp hy).1
        exact ⟨_, List.getElem?_eq_getElem (by omega)⟩
      rw [hw, ih i y w hy hw (h1 y (List.mem_of_getElem? hy)) (h2 w (List.mem_of_getElem? hw))]
  | array t xs u ws hl _ ih =>
    obtain ⟨w, _, he⟩ := hx.value_inv
    cases w <;> rw [Value.toObj] at he <;> cases he
  | map k t kvs u w new h1 h2 _ ih =>
    obtain ⟨rfl, rfl, hs, hk, hp⟩ := value_map hO hx
    obtain ⟨rfl, rfl, hs', hk', hp'⟩ := value_map hO hv
    congr 1
    have key : ∀ p ∈ kvs, ∀ q ∈ new, q.1 = p.1.copied → q = p := by
      intro p h q h' he
      refine Prod.ext ?_ (ih p q h h' he (hp p h) (hp' q h'))
      rw [he, copied_self (hk p h)]
    have hperm : new.Perm kvs := by
      rw [List.perm_ext_iff_of_nodup (sorted_nodup hO hs' hk') (sorted_nodup hO hs hk)]
      intro r
      constructor
      · intro hr
        obtain ⟨p, hp, he⟩ := h2 r hr
        rw [key p hp r hr he]; exact hp
      · intro hr
        obtain ⟨q, hq, he⟩ := h1 r hr
        rw [← key r hr q hq he]; exact hq
    rw [← bmOfList_eq_of_perm (hO.cmpOn .value) hk hs hperm, bmOfList_eq_of_perm (hO.cmpOn .value) hk' hs' (.refl _)]

/-! ## Converting -/

/-- What the conversion of one field of `x` makes of an echo of it. -/
def EchoConv (E : Env) (t : Ty) (x : Obj) : Prop :=
  ∀ v z, Echo x v → HasTy E .value v → fromReflect E t v = some z → z = x.reset

theorem value_own {E : Env} (hD : DeclsOK E) (hO : OrdLaws E) (hK : KeysShown E) {v : Obj} {t : Ty}
    (h : HasTy E .value v) (ht : v.typeOf = some t) : fromReflect E t v = some v := by
  have hty := OK.typed hO ⟨_, h⟩ ht
  obtain ⟨w, hw, rfl⟩ := h.value_inv
  have := roundtrip_noGaps hD hO hK hty hw.noGaps
  rwa [Value.toObj_toValue hw, toObj_reset] at this

theorem echo_field {E : Env} (hD : DeclsOK E) (hO : OrdLaws E) (hK : KeysShown E) {c : Bool} {t : Ty} {x v z : Obj}
    (ih : EchoConv E t x) (he : Echo x v) (hv : HasTy E .value v)
    (h : FieldFrom c (fun t o y => fromReflect E t o = some y) t v z) : z = x.reset := by
  rcases h with ⟨_, hty, rfl⟩ | ⟨_, h⟩
  · exact ih _ _ he hv (value_own hD hO hK hv hty)
  · exact ih v z he hv h

theorem echo_named {E : Env} (hD : DeclsOK E) (hO : OrdLaws E) (hK : KeysShown E) {c : Bool} {v : Obj} {fds : List FieldDef}
    {fs gs : List (String × Obj)} (hn : (fs.map (·.1)).Nodup) (h2 : fs.map (·.1) = fds.map (·.name))
    (h3 : ∀ (i : Nat) fd p, fds[i]? = some fd → fs[i]? = some p → fd.skip = true → p.2.isHidden = true)
    (h4 : ∀ (i : Nat) fd p, fds[i]? = some fd → fs[i]? = some p → fd.skip = false → HasTy E fd.ty p.2)
    (ih : ∀ (i : Nat) fd p, fds[i]? = some fd → fs[i]? = some p → fd.skip = false → EchoConv E fd.ty p.2)
    (hv : HasTy E .value v)
    (he : ∀ m y w, lookup m (visFields fs) = some y → v.field m = some w → Echo y w)
    (hg : NamedFrom c (fun t o y => fromReflect E t o = some y) v fds gs) :
    gs = fs.map fun p => (p.1, p.2.reset) := by
  apply List.ext_getElem?
  intro i
  rw [List.getElem?_map]
  have hl := congrArg List.length h2
  have hl' := congrArg List.length hg.names
  simp only [List.length_map] at hl hl'
  cases hfd : fds[i]? with
  | none =>
    rw [List.getElem?_eq_none_iff] at hfd
    rw [List.getElem?_eq_none_iff.mpr (by omega), List.getElem?_eq_none_iff.mpr (by omega)]; rfl
  | some fd =>
    obtain ⟨p, hp, hpn⟩ := align_named' h2 hfd
    obtain ⟨q, hq, hqn⟩ := align_named' hg.names hfd
    rw [hp, hq, Option.map_some, Option.some.injEq]
    refine Prod.ext (by rw [← hqn, ← hpn]) ?_
    cases hs : fd.skip with
    | true => rw [hg.skipped i fd q hfd hq hs, Obj.reset_hidden (h3 i fd p hfd hp hs)]
    | false =>
      obtain ⟨w, hw, hf⟩ := hg.shown i fd q hfd hq hs
      have ht := h4 i fd p hfd hp hs
      have hk := lookup_vis_of_idx hn hp ht.not_hidden
      rw [← hpn] at hk
      exact echo_field hD hO hK (ih i fd p hfd hp hs) (he _ _ _ hk hw) (field_value hv hw) hf

theorem echo_pos {E : Env} (hD : DeclsOK E) (hO : OrdLaws E) (hK : KeysShown E) {c : Bool} {v : Obj} {fds : List FieldDef}
    {fs gs : List Obj} (h2 : fs.length = fds.length)
    (h3 : ∀ (i : Nat) fd p, fds[i]? = some fd → fs[i]? = some p → fd.skip = true → p.isHidden = true)
    (h4 : ∀ (i : Nat) fd p, fds[i]? = some fd → fs[i]? = some p → fd.skip = false → HasTy E fd.ty p)
    (ih : ∀ (i : Nat) fd p, fds[i]? = some fd → fs[i]? = some p → fd.skip = false → EchoConv E fd.ty p)
    (hv : HasTy E .value v)
    (he : ∀ i y w, visAt fs i = some y → v.fieldAt i = some w → Echo y w)
    (hg : PosFrom c (fun t o y => fromReflect E t o = some y) v fds gs) :
    gs = fs.map fun p => p.reset := by
  apply List.ext_getElem?
  intro i
  rw [List.getElem?_map]
  have hl' := hg.length
  cases hfd : fds[i]? with
  | none =>
    rw [List.getElem?_eq_none_iff] at hfd
    rw [List.getElem?_eq_none_iff.mpr (by omega), List.getElem?_eq_none_iff.mpr (by omega)]; rfl
  | some fd =>
    obtain ⟨p, hp⟩ := align_pos h2.symm hfd
    obtain ⟨q, hq⟩ := align_pos hl'.symm hfd
    rw [hp, hq, Option.map_some, Option.some.injEq]
    cases hs : fd.skip with
    | true => rw [hg.skipped i fd q hfd hq hs, Obj.reset_hidden (h3 i fd p hfd hp hs)]
    | false =>
      obtain ⟨w, hw, hf⟩ := hg.shown i fd q hfd hq hs
      have ht := h4 i fd p hfd hp hs
      exact echo_field hD hO hK (ih i fd p hfd hp hs) (he i _ _ (by simp [visAt, hp, ht.not_hidden]) hw)
        (fieldAt_value hv hw) hf

/-- The keys of an echo of a map are those of the map. -/
theorem echo_keys {E : Env} (hO : OrdLaws E) (hK : KeysShown E) {kt vt : Ty} {kvs new : List (Obj × Obj)}
    (hx : HasTy E (.map kt vt) (.map kt vt kvs)) (hv : HasTy E .value (.map .value .value new))
    (h1 : ∀ p ∈ kvs, ∃ q ∈ new, q.1 = p.1.copied) (h2 : ∀ q ∈ new, ∃ p ∈ kvs, q.1 = p.1.copied) :
    ∃ K : List (Obj × Obj), K.Perm kvs ∧ new.map (·.1) = K.map fun p => p.1.copied := by
  obtain ⟨hs, hk, _⟩ := OK_map_parts hO ⟨_, hx⟩
  obtain ⟨hs', hk', _⟩ := OK_map_parts hO ⟨_, hv⟩
  refine perm_map_inv (f := fun p : Obj × Obj => p.1.copied) ?_ kvs rfl
  rw [List.perm_ext_iff_of_nodup]
  · intro r
    simp only [List.mem_map]
    constructor
    · rintro ⟨q, hq, rfl⟩
      obtain ⟨p, hp, he⟩ := h2 q hq
      exact ⟨p, hp, he.symm⟩
    · rintro ⟨p, hp, rfl⟩
      obtain ⟨q, hq, he⟩ := h1 p hp
      exact ⟨q, hq, he⟩
  · rw [List.Nodup, List.pairwise_map]
    refine List.Pairwise.imp_of_mem ?_ hs'
    intro p q hp hq hlt he
    rw [he, (hO.cmpOn .value).refl _ (hk' q hq)] at hlt
    cases hlt
  · rw [List.Nodup, List.pairwise_map]
    refine List.Pairwise.imp_of_mem ?_ hs
    intro p q hp hq hlt he
    have := hK kt p.1 q.1 (hk p hp) (hk q hq) (by
      have := congrArg Obj.toValue he
      rw [copied_toValue ⟨_, hk p hp⟩, copied_toValue ⟨_, hk q hq⟩] at this
      rw [this, Value.cmp_self])
    rw [hlt] at this
    cases this

theorem conv_enum_variant {E : Env} (hD : DeclsOK E) {n : String} {vds : List VariantDef} {c : Bool}
    (hd : E.decl n = some ⟨.enum vds, c⟩) {v z : Obj} {vd : VariantDef} (hm : vd ∈ vds)
    (hvn : v.variantName = some vd.name) (h : fromReflect E (.named n) v = some z) :
    match vd with
    | .struct vn fds => ∃ fs, z = .enumS (.derived n) vn fs ∧ NamedFrom c (fun t o y => fromReflect E t o = some y) v fds fs
    | .tuple vn fds => ∃ fs, z = .enumT (.derived n) vn fs ∧ PosFrom c (fun t o y => fromReflect E t o = some y) v fds fs
    | .unit vn => z = .enumU (.derived n) vn := by
  have same : ∀ vd' ∈ vds, v.variantName = some vd'.name → vd' = vd := by
    intro vd' hm' h
    rw [hvn, Option.some.injEq] at h
    have h1 := find_variant (hD.variant_names n vds c hd) hm
    have h2 := find_variant (hD.variant_names n vds c hd) hm'
    rw [h] at h1
    rw [h1] at h2
    cases h2; rfl
  rw [fromReflect_step hD] at h
  cases h with
  | struct _ _ _ _ _ h => rw [hd] at h; cases h
  | tupleStruct _ _ _ _ _ h => rw [hd] at h; cases h
  | enumS _ _ _ vn fds _ fs h hm' hn hf => rw [hd] at h; cases h; cases same _ hm' hn; exact ⟨fs, rfl, hf⟩
  | enumT _ _ _ vn fds _ fs h hm' hn hf => rw [hd] at h; cases h; cases same _ hm' hn; exact ⟨fs, rfl, hf⟩
  | enumU _ _ _ vn _ h hm' hn => rw [hd] at h; cases h; cases same _ hm' hn; rfl

/-- Converting something that only repeats what `x` holds to the type of `x` gives `x`, if it can be converted. -/
theorem echo_conv {E : Env} (hD : DeclsOK E) (hO : OrdLaws E) (hK : KeysShown E) {t : Ty} {x : Obj}
    (hx : HasTy E t x) (hg : x.NoGaps) : EchoConv E t x := by
  have same : ∀ {t x z}, HasTy E t x → x.NoGaps → fromReflect E t x.copied = some z → z = x.reset := by
    intro t x z hx hg h
    rw [Obj.copied, roundtrip_noGaps hD hO hK hx hg] at h
    cases h; rfl
  have dyn : ∀ {t x v z}, HasTy E t x → HasTy E .value x → HasTy E .value v → Echo x v → fromReflect E t v = some z →
      z = x.reset := by
    intro t x v z ht hx hv he h
    have := echo_value hO he hx hv
    subst this
    obtain ⟨w, hw, rfl⟩ := hx.value_inv
    refine same ht hw.noGaps ?_
    rwa [copied_self hx]
  induction hx with
  | scalar s =>
    intro v z he hv h
    cases he with
    | same => exact same (.scalar s) hg h
  | nonzero k n hn =>
    intro v z he hv h
    cases he with
    | same => exact same (.nonzero k n hn) hg h
  | struct n fds c fs hd h2 h3 h4 ih =>
    intro v z he hv h
    cases he with
    | same => exact same (.struct n fds c fs hd h2 h3 h4) hg h
    | struct _ _ _ hk hf =>
      rw [fromReflect_step hD] at h
      cases h with
      | struct _ _ _ _ gs hd' _ hgs =>
        rw [hd] at hd'; cases hd'
        rw [echo_named hD hO hK (by rw [h2]; exact hD.struct_names _ _ _ hd) h2 h3 h4
          (fun i fd p hfd hp hs => ih i fd p hfd hp hs
            (hg.parts (mem_parts_named (.inl rfl) hp (h4 i fd p hfd hp hs).not_hidden))) hv hf hgs, Obj.reset]
      | tupleStruct _ _ _ _ _ h => rw [hd] at h; cases h
      | enumS _ _ _ _ _ _ _ h => rw [hd] at h; cases h
      | enumT _ _ _ _ _ _ _ h => rw [hd] at h; cases h
      | enumU _ _ _ _ _ h => rw [hd] at h; cases h
  | enumS n vds c vn fds fs hd hm h2 h3 h4 ih =>
    intro v z he hv h
    cases he with
    | same => exact same (.enumS n vds c vn fds fs hd hm h2 h3 h4) hg h
    | enumS _ _ _ _ hk hf =>
      obtain ⟨gs, rfl, hgs⟩ := conv_enum_variant hD hd hm hk h
      rw [echo_named hD hO hK (by rw [h2]; exact hD.variant_fields _ _ _ _ _ hd hm) h2 h3 h4
          (fun i fd p hfd hp hs => ih i fd p hfd hp hs
            (hg.parts (mem_parts_named (.inr ⟨_, rfl⟩) hp (h4 i fd p hfd hp hs).not_hidden))) hv hf hgs, Obj.reset]
  | tupleStruct n fds c fs hd h2 h3 h4 ih =>
    intro v z he hv h
    cases he with
    | same => exact same (.tupleStruct n fds c fs hd h2 h3 h4) hg h
    | tupleStruct _ _ _ hk hf =>
      rw [fromReflect_step hD] at h
      cases h with
      | tupleStruct _ _ _ _ gs hd' _ hgs =>
        rw [hd] at hd'; cases hd'
        rw [echo_pos hD hO hK h2 h3 h4 (fun i fd p hfd hp hs => ih i fd p hfd hp hs
            (hg.parts (mem_visPos hp (h4 i fd p hfd hp hs).not_hidden))) hv hf hgs, Obj.reset]
      | struct _ _ _ _ _ h => rw [hd] at h; cases h
      | enumS _ _ _ _ _ _ _ h => rw [hd] at h; cases h
      | enumT _ _ _ _ _ _ _ h => rw [hd] at h; cases h
      | enumU _ _ _ _ _ h => rw [hd] at h; cases h
  | enumT n vds c vn fds fs hd hm h2 h3 h4 ih =>
    intro v z he hv h
    cases he with
    | same => exact same (.enumT n vds c vn fds fs hd hm h2 h3 h4) hg h
    | enumT _ _ _ _ hk hf =>
      obtain ⟨gs, rfl, hgs⟩ := conv_enum_variant hD hd hm hk h
      rw [echo_pos hD hO hK h2 h3 h4 (fun i fd p hfd hp hs => ih i fd p hfd hp hs
            (hg.parts (mem_visPos hp (h4 i fd p hfd hp hs).not_hidden))) hv hf hgs, Obj.reset]
  | enumU n vds c vn hd hm =>
    intro v z he hv h
    cases he with
    | same => exact same (.enumU n vds c vn hd hm) hg h
    | enumU _ _ _ hk =>
      rw [conv_enum_variant hD hd hm hk h, Obj.reset]
  | tuple ts fs hl h4 ih =>
    intro v z he hv h
    cases he with
    | same => exact same (.tuple ts fs hl h4) hg h
    | tuple _ _ _ hk hf =>
      rw [fromReflect_step hD] at h
      cases h with
      | tuple _ _ gs _ hl' hgs =>
        rw [Obj.reset]
        congr 1
        apply List.ext_getElem?
        intro i
        rw [List.getElem?_map]
        cases ht : ts[i]? with
        | none =>
          rw [List.getElem?_eq_none_iff] at ht
          rw [List.getElem?_eq_none_iff.mpr (by omega), List.getElem?_eq_none_iff.mpr (by omega)]; rfl
        | some t =>
          obtain ⟨p, hp⟩ := align_pos hl.symm ht
          obtain ⟨q, hq⟩ := align_pos hl'.symm ht
          obtain ⟨w, hw, hc⟩ := hgs i t q ht hq
          have hty := h4 i t p ht hp
          rw [hp, hq, Option.map_some, ih i t p ht hp (hg.parts (mem_visPos hp hty.not_hidden)) w q
            (hf i p w (by simp [Obj.fieldAt, visAt, hp, hty.not_hidden]) hw) (fieldAt_value hv hw) hc]
  | vec t xs hx ih =>
    intro v z he hv h
    cases he with
    | same => exact same (.vec t xs hx) hg h
    | vec _ _ u ws hl hf =>
      obtain ⟨rfl, hw⟩ := value_vec hv
      rw [fromReflect_step hD] at h
      cases h with
      | vec _ _ _ ys hys =>
        obtain ⟨hl', hi⟩ := index_of_forall2 hys
        rw [Obj.reset]
        congr 1
        apply List.ext_getElem?
        intro i
        rw [List.getElem?_map]
        cases hy : ws[i]? with
        | none =>
          rw [List.getElem?_eq_none_iff] at hy
          rw [List.getElem?_eq_none_iff.mpr (by omega), List.getElem?_eq_none_iff.mpr (by omega)]; rfl
        | some w =>
          obtain ⟨p, hp⟩ := align_pos hl.symm hy
          obtain ⟨q, hq⟩ := align_pos hl'.symm hy
          have hm := List.mem_of_getElem? hp
          rw [hp, hq, Option.map_some, ih p hm (hg.parts hm) w q (hf i p w hp hy) (hw w (List.mem_of_getElem? hy)) (hi i w q hy hq)]
  | array t xs hx ih =>
    intro v z he hv h
    cases he with
    | same => exact same (.array t xs hx) hg h
    | array _ _ u ws hl hf =>
      obtain ⟨rfl, hw⟩ := value_vec hv
      rw [fromReflect_step hD] at h
      generalize hN : xs.length = N at h
      cases h with
      | array _ _ _ ys hys =>
        obtain ⟨hl', hi⟩ := index_of_forall2 hys
        rw [Obj.reset]
        congr 1
        apply List.ext_getElem?
        intro i
        rw [List.getElem?_map]
        cases hy : ws[i]? with
        | none =>
          rw [List.getElem?_eq_none_iff] at hy
          rw [List.getElem?_eq_none_iff.mpr (by omega), List.getElem?_eq_none_iff.mpr (by omega)]; rfl
        | some w =>
          obtain ⟨p, hp⟩ := align_pos hl.symm hy
          obtain ⟨q, hq⟩ := align_pos hl'.symm hy
          have hm := List.mem_of_getElem? hp
          rw [hp, hq, Option.map_some, ih p hm (hg.parts hm) w q (hf i p w hp hy) (hw w (List.mem_of_getElem? hy)) (hi i w q hy hq)]
  | map kt vt kvs hs hk hv' ihk ihv =>
    intro v z he hv h
    have hx := HasTy.map kt vt kvs hs hk hv'
    cases he with
    | same => exact same hx hg h
    | map _ _ _ u w new h1 h2 hf =>
      obtain ⟨rfl, rfl, _, hwk, hwv⟩ := value_map hO hv
      obtain ⟨K, hperm, hKe⟩ := echo_keys hO hK hx hv h1 h2
      rw [fromReflect_step hD] at h
      cases h with
      | map _ _ _ _ _ l hl =>
        obtain ⟨hl', hi⟩ := index_of_forall2 hl
        have hll := congrArg List.length hKe
        simp only [List.length_map] at hll
        have hle : l = K.map fun p => (p.1.reset, p.2.reset) := by
          apply List.ext_getElem?
          intro i
          rw [List.getElem?_map]
          cases hy : new[i]? with
          | none =>
            rw [List.getElem?_eq_none_iff] at hy
            rw [List.getElem?_eq_none_iff.mpr (by omega), List.getElem?_eq_none_iff.mpr (by omega)]; rfl
          | some q =>
            obtain ⟨p, hp⟩ := align_pos hll hy
            obtain ⟨r, hr⟩ := align_pos hl'.symm hy
            have hkey : q.1 = p.1.copied := by
              have := congrArg (·[i]?) hKe
              simpa [hy, hp] using this
            have hpm := hperm.subset (List.mem_of_getElem? hp)
            have hqm := List.mem_of_getElem? hy
            obtain ⟨c1, c2⟩ := hi i q r hy hr
            rw [hp, hr, Option.map_some, Option.some.injEq]
            refine Prod.ext ?_ (ihv p hpm ((map_parts hg).2 p hpm) _ _ (hf p q hpm hqm hkey) (hwv q hqm) c2)
            rw [hkey] at c1
            exact same (hk p hpm) ((map_parts hg).1 p hpm) c1
        subst hle
        rw [Obj.reset, bmOfList_eq_of_perm (hO.cmpOn kt) (m := kvs.map fun p => (p.1.reset, p.2.reset)) ?_
          (reset_sorted hO hK hs hk fun p hp => (hk p hp).reset hO hK) (hperm.map _)]
        intro p hp
        obtain ⟨q, hq, rfl⟩ := List.mem_map.mp hp
        exact (hk q hq).reset hO hK
  | box t o _ ih =>
    intro v z he hv h
    rw [fromReflect_box] at h
    exact ih hg v z he hv h
  | value w o hw ho =>
    intro v z he hv h
    exact dyn (.value w o hw ho) (.value w o hw ho) hv he h
  | structValue ns fs o hw ho =>
    intro v z he hv h
    exact dyn (.structValue ns fs o hw ho) (.value _ o hw ho) hv he h
  | tupleStructValue fs o hw ho =>
    intro v z he hv h
    exact dyn (.tupleStructValue fs o hw ho) (.value _ o hw ho) hv he h
  | tupleValue fs o hw ho =>
    intro v z he hv h
    exact dyn (.tupleValue fs o hw ho) (.value _ o hw ho) hv he h
  | enumValueS vn ns fs o hw ho =>
    intro v z he hv h
    exact dyn (.enumValueS vn ns fs o hw ho) (.value _ o hw ho) hv he h
  | enumValueT vn fs o hw ho =>
    intro v z he hv h
    exact dyn (.enumValueT vn fs o hw ho) (.value _ o hw ho) hv he h
  | enumValueU vn o ho =>
    intro v z he hv h
    exact dyn (.enumValueU vn o ho) (.value _ o (.enumU vn) ho) hv he h

/-! ## Patching -/

theorem enumsReset_reset (x : Obj) : x.enumsReset.reset = x.reset := by
  induction x using Obj.ind with
  | h x ih =>
    have pos : ∀ {fs : List Obj}, (∀ y ∈ fs, sizeOf y < sizeOf x) →
        (fs.map fun y => y.enumsReset).map (fun y => y.reset) = fs.map fun y => y.reset := by
      intro fs h
      rw [List.map_map]
      exact List.map_congr_left fun y hy => ih y (h y hy)
    cases x with
    | scalar s => simp only [Obj.enumsReset]
    | nonzero k n => simp only [Obj.enumsReset]
    | hidden d => simp only [Obj.enumsReset]
    | enumU tag vn => simp only [Obj.enumsReset]
    | struct tag fs =>
      simp only [Obj.enumsReset, Obj.reset, List.map_map]
      congr 1
      refine List.map_congr_left fun y hy => ?_
      have := sizeOf_snd_lt_of_mem hy
      simp only [Function.comp]
      rw [ih y.2 (by simp; omega)]
    | enumS tag vn fs => rw [Obj.enumsReset, reset_reset]
    | tupleStruct tag fs =>
      simp only [Obj.enumsReset, Obj.reset]
      rw [pos fun y hy => by have := List.sizeOf_lt_of_mem hy; simp; omega]
    | tuple tag fs =>
      simp only [Obj.enumsReset, Obj.reset]
      rw [pos fun y hy => by have := List.sizeOf_lt_of_mem hy; simp; omega]
    | enumT tag vn fs => rw [Obj.enumsReset, reset_reset]
    | vec t fs =>
      simp only [Obj.enumsReset, Obj.reset]
      rw [pos fun y hy => by have := List.sizeOf_lt_of_mem hy; simp; omega]
    | array t fs => simp only [Obj.enumsReset]
    | map kt vt kvs =>
      simp only [Obj.enumsReset, Obj.reset, List.map_map]
      congr 1
      refine List.map_congr_left fun p hp => ?_
      have h2 := sizeOf_snd_lt_of_mem hp
      simp only [Function.comp]
      rw [ih p.2 (by simp; omega)]

theorem echo_patchNamed {E : Env} {v : Obj} {fs : List (String × Obj)} (hn : (fs.map (·.1)).Nodup)
    (h : ∀ m y w, lookup m (visFields fs) = some y → v.field m = some w → (patch E y w).reset = y.reset) :
    (patchNamed E v fs).map (fun p => (p.1, p.2.reset)) = fs.map fun p => (p.1, p.2.reset) := by
  rw [patchNamed, List.map_map]
  refine List.map_congr_left fun p hp => ?_
  simp only [Function.comp]
  congr 1
  cases hh : p.2.isHidden with
  | true => rw [patchO_of_hidden E hh]
  | false =>
    have hm : p ∈ visFields fs := List.mem_filter.mpr ⟨hp, by simp [hh]⟩
    have hl := lookup_of_mem_nodup (nodup_vis hn) (n := p.1) (x := p.2) hm
    cases hf : v.field p.1 with
    | none => rfl
    | some w => exact h _ _ _ hl hf

theorem echo_patchPos {E : Env} {v : Obj} {fs : List Obj}
    (h : ∀ i y w, visAt fs i = some y → v.fieldAt i = some w → (patch E y w).reset = y.reset) :
    (patchPos E v fs).map (fun p => p.reset) = fs.map fun p => p.reset := by
  apply List.ext_getElem?
  intro i
  simp only [patchPos, List.getElem?_mapIdx, List.getElem?_map]
  cases hy : fs[i]? with
  | none => rfl
  | some y =>
    simp only [Option.map_some, Option.some.injEq]
    cases hh : y.isHidden with
    | true => rw [patchO_of_hidden E hh]
    | false =>
      cases hf : v.fieldAt i with
      | none => rfl
      | some w => exact h i y w (by simp [visAt, hy, hh]) hf

theorem value_not_named {E : Env} {v : Obj} (h : HasTy E .value v) (n : String) : v.isTy (.named n) = false := by
  obtain ⟨w, _, rfl⟩ := h.value_inv
  cases w <;> rw [Value.toObj] <;> simp [Obj.isTy, Obj.typeOf]

theorem variantName_kind {v : Obj} {vn : String} (h : v.variantName = some vn) : v.kind = .enum := by
  cases v <;> simp [Obj.variantName] at h <;> rfl

theorem lookup_part {fs : List (String × Obj)} {m : String} {y : Obj} (h : lookup m (visFields fs) = some y) :
    y ∈ (visFields fs).map (·.2) := by
  exact List.mem_map.mpr ⟨_, lookup_mem h, rfl⟩

/-- Patching with something that only repeats what `x` holds changes nothing that is shown. -/
theorem echo_patch {E : Env} (hD : DeclsOK E) (hO : OrdLaws E) (hK : KeysShown E) {x v : Obj} (he : Echo x v)
    (hx : x.OK E) (hg : x.NoGaps) (hv : HasTy E .value v) : (patch E x v).reset = x.reset := by
  have hnd := fun {o : Obj} (h : o.OK E) => OK.named_nodup hD hO h
  have enum : ∀ {x v : Obj} {n : String}, Echo x v → x.OK E → x.NoGaps → HasTy E .value v → x.kind = .enum →
      x.typeOf = some (.named n) → v.kind = .enum → (patchFields E v x).reset = x.reset →
      (patch E x v).reset = x.reset := by
    intro x v n he hx hg hv hk ht hvk hp
    rw [patch_enum_derived E hk ht, value_not_named hv, Bool.false_and, if_neg (by simp), if_pos hvk]
    split
    · next z hz => rw [echo_conv hD hO hK (OK.typed hO hx ht) hg v z he hv hz, reset_reset]
    · split
      · exact hp
      · rfl
  induction he with
  | same x => rw [Obj.copied, patch_toValue_eq hD hO hK hx hg, enumsReset_reset]
  | struct n fs v hk _ ih =>
    rw [patch_struct, if_pos hk, Obj.reset, Obj.reset, echo_patchNamed ((hnd hx).1 _ _ rfl)]
    intro m y w hy hw
    exact ih m y w hy hw (hx.parts (lookup_part hy)) (hg.parts (lookup_part hy)) (field_value hv hw)
  | tupleStruct n fs v hk _ ih =>
    rw [patch_tupleStruct, if_pos hk, Obj.reset, Obj.reset, echo_patchPos]
    intro i y w hy hw
    exact ih i y w hy hw (hx.parts (visAt_parts hy)) (hg.parts (visAt_parts hy)) (fieldAt_value hv hw)
  | tuple ts fs v hk _ ih =>
    rw [patch_tuple, if_pos hk, Obj.reset, Obj.reset, echo_patchPos]
    intro i y w hy hw
    exact ih i y w hy hw (hx.parts (visAt_parts hy)) (hg.parts (visAt_parts hy)) (fieldAt_value hv hw)
  | enumS n vn fs v hk hf ih =>
    refine enum (.enumS n vn fs v hk hf) hx hg hv rfl rfl (variantName_kind hk) ?_
    rw [patchFields, Obj.reset, Obj.reset, echo_patchNamed ((hnd hx).2 _ _ _ rfl)]
    intro m y w hy hw
    exact ih m y w hy hw (hx.parts (lookup_part hy)) (hg.parts (lookup_part hy)) (field_value hv hw)
  | enumT n vn fs v hk hf ih =>
    refine enum (.enumT n vn fs v hk hf) hx hg hv rfl rfl (variantName_kind hk) ?_
    rw [patchFields, Obj.reset, Obj.reset, echo_patchPos]
    intro i y w hy hw
    exact ih i y w hy hw (hx.parts (visAt_parts hy)) (hg.parts (visAt_parts hy)) (fieldAt_value hv hw)
  | enumU n vn v hk =>
    exact enum (.enumU n vn v hk) hx hg hv rfl rfl (variantName_kind hk) (by simp [patchFields])
  | vec t xs u ws hl _ ih =>
    obtain ⟨_, hw⟩ := value_vec hv
    rw [patch_vec, if_pos (by rfl), Obj.reset, Obj.reset, echo_patchPos]
    intro i y w hy hw'
    have hm : xs[i]? = some y := by
      rw [visAt] at hy
      cases hz : xs[i]? with
      | none => simp [hz] at hy
      | some z =>
        simp only [hz, Option.bind_some] at hy
        split at hy
        · cases hy
        · cases hy; rfl
    have hp : y ∈ (Obj.vec t xs).parts := List.mem_of_getElem? hm
    exact ih i y w hm (by simpa [Obj.fieldAt] using hw') (hx.parts hp) (hg.parts hp) (fieldAt_value hv hw')
  | array t xs u ws hl _ ih => rw [patch_array, if_neg (by simp [Obj.kind])]
  | map kt vt kvs u w new h1 h2 hf ih =>
    obtain ⟨rfl, rfl, hs', hk', hv'⟩ := value_map hO hv
    obtain ⟨hs, hk, hvt⟩ := OK_map_parts hO hx
    obtain ⟨gk, gv⟩ := map_parts hg
    rw [patch_map, patchEntries_eq hO _ (fun p hp => ⟨_, hk' p hp⟩) _ hs hk, Obj.reset, Obj.reset, List.map_map]
    congr 1
    refine List.map_congr_left fun p hp => ?_
    obtain ⟨q, hq, hqe⟩ := h1 p hp
    have hself : ∀ q ∈ kvs, E.kcmp kt q.1 q.1.reset = .eq := fun q hq =>
      hK kt _ _ (hk q hq) ((hk q hq).reset hO hK) (by rw [toValue_reset, Value.cmp_self])
    have hh : hits E kt p.1 new = [q.2] := by
      refine filterMap_unique (sorted_nodup hO hs' hk') hq ?_ ?_
      · simp only [hqe, Obj.copied, roundtrip_noGaps hD hO hK (hk p hp) (gk p hp), Option.bind_some]
        rw [if_pos ((hO.cmpOn kt).eq_symm (hk p hp) ((hk p hp).reset hO hK) (hself p hp))]
      · intro r hr hsome
        obtain ⟨p', hp', hre⟩ := h2 r hr
        simp only [hre, Obj.copied, roundtrip_noGaps hD hO hK (hk p' hp') (gk p' hp'), Option.bind_some] at hsome
        split at hsome
        · next hc =>
          rw [← (hO.cmpOn kt).eq_trans _ _ _ (hk p' hp') ((hk p' hp').reset hO hK) (hk p hp)
            (hself p' hp')] at hc
          have := sorted_key_unique (hO.cmpOn kt) hk hs hp' hp hc
          subst this
          refine sorted_key_unique (hO.cmpOn .value) hk' hs' hr hq ?_
          rw [hre, hqe]
          exact (hO.cmpOn .value).refl _ (hk p' hp').copied
        · cases hsome
    simp only [Function.comp, hh, patchSeq_cons, patchSeq_nil]
    rw [ih p q hp hq hqe ⟨_, hvt p hp⟩ (gv p hp) (hv' q hq)]

/-! ## What another version of the types reads only repeats what was written -/

theorem echo_of_field {E E' : Env} {c : Bool} {t : Ty} {x q : Obj} (hx : x.OK E)
    (ih : ∀ y, fromReflect E' t x.copied = some y → y.NoGaps → Echo x y.copied) (hq : q.NoGaps)
    (h : FieldFrom c (fun t o y => fromReflect E' t o = some y) t x.copied q) : Echo x q.copied := by
  rcases h with ⟨_, _, rfl⟩ | ⟨_, h⟩
  · rw [copied_copied hx]; exact .same x
  · exact ih q h hq

/-- By name. -/
theorem view_named {E E' : Env} {R : Ty → Ty → Prop} {c : Bool} {fds fds' : List FieldDef}
    {ps fs' : List (String × Obj)} {v : Obj}
    (hs : List.Forall₂ (fun fd p => p.1 = fd.name ∧ HasTy E fd.ty p.2) (declShown fds) ps)
    (hn : (ps.map (·.1)).Nodup)
    (hv : ∀ m, v.field m = (lookup m ps).map Obj.copied) (hr : NamedReads R fds fds')
    (hf : NamedFrom c (fun t o y => fromReflect E' t o = some y) v fds' fs')
    (hg : ∀ q ∈ (visFields fs').map (·.2), q.NoGaps)
    (ih : ∀ p ∈ ps, ∀ a b, HasTy E a p.2 → R a b → ∀ y, fromReflect E' b p.2.copied = some y → y.NoGaps →
      Echo p.2 y.copied) :
    ∀ m y q, lookup m ps = some y → lookup m (visFields fs') = some q → Echo y q.copied := by
  intro m y q hy hq
  have hym := lookup_mem hy
  have hqm := lookup_mem hq
  obtain ⟨i, hi⟩ := List.getElem?_of_mem (List.mem_filter.mp hqm).1
  obtain ⟨fd', hfd', hne⟩ := align_named hf.names hi
  have hsk : fd'.skip = false := by
    cases h : fd'.skip with
    | false => rfl
    | true =>
      have := hf.skipped i fd' _ hfd' hi h
      have hh := (List.mem_filter.mp hqm).2
      simp only at this
      rw [this] at hh
      simp [Obj.isHidden] at hh
  obtain ⟨w, hw, hF⟩ := hf.shown i fd' _ hfd' hi hsk
  obtain ⟨fd, hfd, he, hR⟩ := hr fd' (mem_shown.mpr ⟨List.mem_of_getElem? hfd', hsk⟩)
  obtain ⟨j, hj⟩ := List.getElem?_of_mem hfd
  obtain ⟨hl, hx⟩ := index_of_forall2 hs
  obtain ⟨p, hp⟩ : ∃ p, ps[j]? = some p := by
    have := (List.getElem?_eq_some_iff.mp hj).1
    exact ⟨_, List.getElem?_eq_getElem (by omega)⟩
  obtain ⟨h1, h2⟩ := hx j fd p hj hp
  have hpm := List.mem_of_getElem? hp
  have hnm : fd'.name = m := hne
  have hpl : lookup m ps = some p.2 := (lookup_iff hn).mpr (by
    have : m = p.1 := by rw [h1, he, hnm]
    rw [this]; exact hpm)
  rw [hy] at hpl
  cases hpl
  rw [hnm, hv, hy] at hw
  cases hw
  exact echo_of_field ⟨_, h2⟩ (ih p hpm _ _ h2 hR) (hg q (List.mem_map.mpr ⟨_, hqm, rfl⟩)) hF

/-- By position. -/
theorem view_pos {E E' : Env} {R : Ty → Ty → Prop} {c : Bool} {fds fds' : List FieldDef} {xs fs' : List Obj} {v : Obj}
    (hs : List.Forall₂ (fun fd x => HasTy E fd.ty x) (declShown fds) xs)
    (hv : ∀ i : Nat, v.fieldAt i = (xs[i]?).map Obj.copied) (hr : PosReads R fds fds')
    (hf : PosFrom c (fun t o y => fromReflect E' t o = some y) v fds' fs')
    (hg : ∀ q ∈ visPos fs', q.NoGaps)
    (ih : ∀ x ∈ xs, ∀ a b, HasTy E a x → R a b → ∀ y, fromReflect E' b x.copied = some y → y.NoGaps → Echo x y.copied) :
    ∀ (i : Nat) y q, xs[i]? = some y → visAt fs' i = some q → Echo y q.copied := by
  intro i y q hy hq
  have hqv := visAt_parts hq
  obtain ⟨hi, hh⟩ := visAt_some_iff.mp hq
  obtain ⟨fd', hfd'⟩ := align_pos hf.length hi
  have hsk : fd'.skip = false := by
    cases h : fd'.skip with
    | false => rfl
    | true =>
      have := hf.skipped i fd' _ hfd' hi h
      rw [this] at hh
      simp [Obj.isHidden] at hh
  obtain ⟨w, hw, hF⟩ := hf.shown i fd' _ hfd' hi hsk
  obtain ⟨fd, hfd, hR⟩ := hr i fd' hfd' hsk
  obtain ⟨_, hx⟩ := index_of_forall2 hs
  have h2 := hx i fd y hfd hy
  rw [hv, hy] at hw
  cases hw
  exact echo_of_field ⟨_, h2⟩ (ih y (List.mem_of_getElem? hy) _ _ h2 hR) (hg q hqv) hF

theorem read_dyn {E : Env} (hD : DeclsOK E) (hO : OrdLaws E) (hK : KeysShown E) {t : Ty} {v y : Obj}
    (h : HasTy E .value v) (ht : t = .value ∨ v.typeOf = some t) (hy : fromReflect E t v = some y) : y = v := by
  rcases ht with rfl | ht
  · rw [fromReflect_value, Option.some.injEq] at hy
    rw [← hy]; exact copied_self h
  · rw [value_own hD hO hK h ht] at hy
    cases hy; rfl

theorem dyn_type {E : Env} {v : Obj} (h : HasTy E .value v) :
    (v.kind = .struct → v.typeOf = some .structValue) ∧ (v.kind = .tupleStruct → v.typeOf = some .tupleStructValue) ∧
    (v.kind = .tuple → v.typeOf = some .tupleValue) ∧ (v.kind = .enum → v.typeOf = some .enumValue) := by
  obtain ⟨w, _, rfl⟩ := h.value_inv
  cases w <;> rw [Value.toObj] <;> simp [Obj.kind, Obj.typeOf]

theorem entry_copies {E : Env} (hO : OrdLaws E) (hK : KeysShown E) {kt : Ty} {kvs : List (Obj × Obj)}
    (hs : BMSorted (E.kcmp kt) kvs) (hk : ∀ p ∈ kvs, HasTy E kt p.1) :
    (entryCopy kvs).Perm (kvs.map fun p => (p.1.copied, p.2.copied)) := by
  have := (bmCollect_perm (map_value_keys hO hK hs hk)).map fun p : Value × Value => (p.1.toObj, p.2.toObj)
  rwa [List.map_map] at this

theorem view_step {E E' : Env} (hD : DeclsOK E) (hO : OrdLaws E) (hK : KeysShown E) (hD' : DeclsOK E')
    (hO' : OrdLaws E') (hF' : KeysFaithful E') {R : Ty → Ty → Prop} {x y : Obj} {a b : Ty} (hx : HasTy E a x) (hg : x.NoGaps)
    (hab : ReadStep E E' R a b) (hl : Lossless E E' a b)
    (hy : fromReflect E' b x.copied = some y) (hgy : y.NoGaps)
    (hlt : ∀ z c d, sizeOf z < sizeOf x → HasTy E c z → z.NoGaps → R c d → ∀ y, fromReflect E' d z.copied = some y →
      y.NoGaps → Echo z y.copied)
    (heq : ∀ c d, sizeOf c + sizeOf d < sizeOf a + sizeOf b → HasTy E c x → R c d →
      fromReflect E' d x.copied = some y → Echo x y.copied) :
    Echo x y.copied := by
  have hK' := hF'.shown
  have hval : HasTy E' .value x.copied := value_any hx.copied
  have hyty := fromReflect_sound hO' b _ ⟨_, hval⟩ hy
  have hylast := hgy.last hO' ⟨_, hyty⟩
  have hxlast := hg.last hO ⟨_, hx⟩
  have hynd := OK.named_nodup hD' hO' ⟨_, hyty⟩
  have eqc : y.copied = x.copied → Echo x y.copied := fun h => by rw [h]; exact .same x
  have dyn : (b = .value ∨ x.copied.typeOf = some b) → Echo x y.copied := fun h =>
    eqc (by rw [read_dyn hD' hO' hK' hval h hy, copied_copied ⟨_, hx⟩])
  have atPos : ∀ {fs : List Obj} {i : Nat} {w : Obj}, HiddenLast fs →
      visAt ((visPos fs).map Obj.copied) i = some w → ∃ q, visAt fs i = some q ∧ w = q.copied := by
    intro fs i w hl h
    rw [visAt_copy hl] at h
    obtain ⟨q, hq, rfl⟩ := Option.map_eq_some_iff.mp h
    exact ⟨q, hq, rfl⟩
  have hab' := hab
  cases hab with
  | scalar k =>
    cases hx with
    | scalar s =>
      refine eqc ?_
      rw [copied_scalar] at hy
      rw [fromReflect_step hD'] at hy
      generalize hk : s.kind = k at hy
      cases hy; rfl
  | nonzero k =>
    cases hx with
    | nonzero _ n h =>
      rw [copied_nonzero, fromReflect_step hD'] at hy
      cases hy
      exact eqc (by rw [copied_nonzero])
  | nonzeroInt k =>
    cases hx with
    | nonzero _ n h =>
      refine eqc ?_
      rw [copied_nonzero] at hy ⊢
      rw [fromReflect_scalar] at hy
      split at hy
      · cases hy; rw [copied_scalar]
      · cases hy
  | struct _ n fds fds' c ht hd' hr =>
    cases ht with
    | dyn => exact hl.elim
    | derived m _ c hd =>
      cases hx with
      | struct _ gds c2 fs hd2 h1 h2 h3 =>
        rw [hd] at hd2; cases hd2
        have hn : (fs.map (·.1)).Nodup := by rw [h1]; exact hD.struct_names _ _ _ hd
        rw [fromReflect_step hD'] at hy
        cases hy with
        | struct _ _ _ _ fs' hd3 _ hf =>
          rw [hd'] at hd3; cases hd3
          refine .struct _ _ _ (by rw [copied_struct]; rfl) ?_
          intro m y w hy' hw
          rw [(copied_field (hynd.1 _ _ rfl) m).1] at hw
          obtain ⟨q, hq, rfl⟩ := Option.map_eq_some_iff.mp hw
          refine view_named (shown_named h1 h2 h3) (nodup_vis hn) (fun m => (copied_field hn m).1) hr hf
            (fun q hq => hgy.parts hq) ?_ m y q hy' hq
          intro p hp a b ha hb
          have := sizeOf_visFields hp
          exact hlt p.2 a b (by simp; omega) ha (hg.parts (List.mem_map_of_mem hp)) hb
        | tupleStruct _ _ _ _ _ h => rw [hd'] at h; cases h
        | enumS _ _ _ _ _ _ _ h => rw [hd'] at h; cases h
        | enumT _ _ _ _ _ _ _ h => rw [hd'] at h; cases h
        | enumU _ _ _ _ _ h => rw [hd'] at h; cases h
      | tupleStruct _ _ _ _ h => rw [hd] at h; cases h
      | enumS _ _ _ _ _ _ h => rw [hd] at h; cases h
      | enumT _ _ _ _ _ _ h => rw [hd] at h; cases h
      | enumU _ _ _ _ h => rw [hd] at h; cases h
  | tupleStruct _ n fds fds' c ht hd' hr =>
    cases ht with
    | dyn => exact hl.elim
    | derived m _ c hd =>
      cases hx with
      | tupleStruct _ gds c2 fs hd2 h1 h2 h3 =>
        rw [hd] at hd2; cases hd2
        rw [fromReflect_step hD'] at hy
        cases hy with
        | tupleStruct _ _ _ _ fs' hd3 _ hf =>
          rw [hd'] at hd3; cases hd3
          refine .tupleStruct _ _ _ (by rw [copied_tupleStruct]; rfl) ?_
          intro i y w hy' hw
          rw [copied_tupleStruct] at hw
          obtain ⟨q, hq, rfl⟩ := atPos (hylast.1 _ _ rfl) hw
          refine view_pos (shown_pos h1 h2 h3)
            (fun i => by rw [copied_tupleStruct, Obj.fieldAt]; exact visAt_copied i) hr hf
            (fun q hq => hgy.parts hq) ?_ i y q (visAt_eq_visPos (hxlast.1 _ _ rfl) hy') hq
          intro p hp a b ha hb
          have := sizeOf_vis hp
          exact hlt p a b (by simp; omega) ha (hg.parts hp) hb
        | struct _ _ _ _ _ h => rw [hd'] at h; cases h
        | enumS _ _ _ _ _ _ _ h => rw [hd'] at h; cases h
        | enumT _ _ _ _ _ _ _ h => rw [hd'] at h; cases h
        | enumU _ _ _ _ _ h => rw [hd'] at h; cases h
      | struct _ _ _ _ h => rw [hd] at h; cases h
      | enumS _ _ _ _ _ _ h => rw [hd] at h; cases h
      | enumT _ _ _ _ _ _ h => rw [hd] at h; cases h
      | enumU _ _ _ _ h => rw [hd] at h; cases h
  | enum m n vds vds' c c' hd hd' hv =>
    cases hx with
    | struct _ _ _ _ h => rw [hd] at h; cases h
    | tupleStruct _ _ _ _ h => rw [hd] at h; cases h
    | enumS _ _ _ vn fds fs hd2 hm h1 h2 h3 =>
      rw [hd] at hd2; cases hd2
      have hn : (fs.map (·.1)).Nodup := by rw [h1]; exact hD.variant_fields _ _ _ _ _ hd hm
      obtain ⟨vd', hm', he, hr⟩ := hv _ hm
      have hz := conv_enum_variant hD' hd' hm' (by rw [copied_variantName, ← he]; rfl) hy
      have he : vn = vd'.name := he
      cases vd' with
      | struct _ fds' =>
        obtain ⟨fs', rfl, hf⟩ := hz
        subst he
        refine .enumS _ _ _ _ (by rw [copied_variantName]; rfl) ?_
        intro m y w hy' hw
        rw [(copied_field (hynd.2 _ _ _ rfl) m).2] at hw
        obtain ⟨q, hq, rfl⟩ := Option.map_eq_some_iff.mp hw
        refine view_named (shown_named h1 h2 h3) (nodup_vis hn) (fun m => (copied_field hn m).2 _) hr hf
          (fun q hq => hgy.parts hq) ?_ m y q hy' hq
        intro p hp a b ha hb
        have := sizeOf_visFields hp
        exact hlt p.2 a b (by simp; omega) ha (hg.parts (List.mem_map_of_mem hp)) hb
      | tuple _ fds' =>
        obtain ⟨fs', rfl, hf⟩ := hz
        subst he
        refine .enumS _ _ _ _ (by rw [copied_variantName]; rfl) ?_
        intro m y w _ hw
        rw [copied_enumT] at hw
        cases hw
      | unit _ =>
        subst hz; subst he
        refine .enumS _ _ _ _ (by rw [copied_variantName]; rfl) ?_
        intro m y w _ hw
        rw [copied_enumU] at hw
        cases hw
    | enumT _ _ _ vn fds fs hd2 hm h1 h2 h3 =>
      rw [hd] at hd2; cases hd2
      obtain ⟨vd', hm', he, hr⟩ := hv _ hm
      have hz := conv_enum_variant hD' hd' hm' (by rw [copied_variantName, ← he]; rfl) hy
      have he : vn = vd'.name := he
      cases vd' with
      | struct _ fds' =>
        obtain ⟨fs', rfl, hf⟩ := hz
        subst he
        refine .enumT _ _ _ _ (by rw [copied_variantName]; rfl) ?_
        intro i y w _ hw
        rw [copied_enumS_at (hynd.2 _ _ _ rfl)] at hw
        obtain ⟨p, hp, rfl⟩ := Option.map_eq_some_iff.mp hw
        have hpm := List.mem_of_getElem? hp
        obtain ⟨j, hj⟩ := List.getElem?_of_mem (List.mem_filter.mp hpm).1
        obtain ⟨fd', hfd', _⟩ := align_named hf.names hj
        have hh := (List.mem_filter.mp hpm).2
        cases hs : fd'.skip with
        | true => rw [hf.skipped j fd' p hfd' hj hs] at hh; simp [Obj.isHidden] at hh
        | false =>
          obtain ⟨fd, hfd, _⟩ := hr fd' (mem_shown.mpr ⟨List.mem_of_getElem? hfd', hs⟩)
          simp [declShown, VariantDef.named] at hfd
      | tuple _ fds' =>
        obtain ⟨fs', rfl, hf⟩ := hz
        subst he
        refine .enumT _ _ _ _ (by rw [copied_variantName]; rfl) ?_
        intro i y w hy' hw
        rw [copied_enumT] at hw
        obtain ⟨q, hq, rfl⟩ := atPos (hylast.2.2 _ _ _ rfl) hw
        refine view_pos (shown_pos h1 h2 h3)
          (fun i => by rw [copied_enumT, Obj.fieldAt]; exact visAt_copied i) hr hf
          (fun q hq => hgy.parts hq) ?_ i y q (visAt_eq_visPos (hxlast.2.2 _ _ _ rfl) hy') hq
        intro p hp a b ha hb
        have := sizeOf_vis hp
        exact hlt p a b (by simp; omega) ha (hg.parts hp) hb
      | unit _ =>
        subst hz; subst he
        refine .enumT _ _ _ _ (by rw [copied_variantName]; rfl) ?_
        intro m y w _ hw
        rw [copied_enumU] at hw
        cases hw
    | enumU _ _ _ vn hd2 hm =>
      rw [hd] at hd2; cases hd2
      obtain ⟨vd', hm', he, hr⟩ := hv _ hm
      have hz := conv_enum_variant hD' hd' hm' (by rw [copied_variantName, ← he]; rfl) hy
      have he : vn = vd'.name := he
      refine .enumU _ _ _ ?_
      rw [copied_variantName, he]
      cases vd' with
      | struct _ fds' => obtain ⟨fs', rfl, hf⟩ := hz; rfl
      | tuple _ fds' => obtain ⟨fs', rfl, hf⟩ := hz; rfl
      | unit _ => subst hz; rfl
  | tuple _ ts ts' ht hr =>
    cases ht with
    | dyn => exact hl.elim
    | typed =>
      cases hx with
      | tuple _ fs hlen h =>
        rw [fromReflect_step hD'] at hy
        cases hy with
        | tuple _ _ gs _ hl' hgs =>
          refine .tuple _ _ _ (by rw [copied_tuple]; rfl) ?_
          intro i y w hy' hw
          rw [copied_tuple, Obj.fieldAt, visAt_copied] at hw
          obtain ⟨q, hq, rfl⟩ := Option.map_eq_some_iff.mp hw
          obtain ⟨t', ht'⟩ := align_pos hl' hq
          obtain ⟨w, hw, hc⟩ := hgs i t' q ht' hq
          obtain ⟨t, ht, hR⟩ := hr i t' ht'
          obtain ⟨hyi, hyh⟩ := visAt_some_iff.mp hy'
          rw [copied_tuple, Obj.fieldAt, visAt_copied, hyi] at hw
          cases hw
          have := List.sizeOf_lt_of_mem (List.mem_of_getElem? hyi)
          have hqt : HasTy E' t' q := by
            cases hyty with
            | tuple _ _ _ h => exact h i t' q ht' hq
          exact hlt y t t' (by simp; omega) (h i t y ht hyi) (hg.parts (mem_visPos hyi hyh)) hR q hc
            (hgy.parts (mem_visPos hq hqt.not_hidden))
  | vec t t' hr =>
    cases hx with
    | vec _ xs h =>
      rw [copied_vec, fromReflect_step hD'] at hy
      cases hy with
      | vec _ _ _ ys hys =>
        obtain ⟨hlen, hi⟩ := index_of_forall2 hys
        simp only [List.length_map] at hlen
        rw [copied_vec]
        refine .vec _ _ _ _ (by simp [hlen]) ?_
        intro i z w hz hw
        rw [List.getElem?_map] at hw
        obtain ⟨q, hq, rfl⟩ := Option.map_eq_some_iff.mp hw
        have hm := List.mem_of_getElem? hz
        have := List.sizeOf_lt_of_mem hm
        exact hlt z t t' (by simp; omega) (h z hm) (hg.parts hm) hr q (hi i _ q (by simp [hz]) hq)
          (hgy.parts (List.mem_of_getElem? hq))
  | arrayVec t t' n hr =>
    cases hx with
    | array _ xs h =>
      rw [copied_array, fromReflect_step hD'] at hy
      cases hy with
      | vec _ _ _ ys hys =>
        obtain ⟨hlen, hi⟩ := index_of_forall2 hys
        simp only [List.length_map] at hlen
        rw [copied_vec]
        refine .array _ _ _ _ (by simp [hlen]) ?_
        intro i z w hz hw
        rw [List.getElem?_map] at hw
        obtain ⟨q, hq, rfl⟩ := Option.map_eq_some_iff.mp hw
        have hm := List.mem_of_getElem? hz
        have := List.sizeOf_lt_of_mem hm
        rcases hr with h0 | hr
        · rw [List.length_eq_zero_iff] at h0; subst h0; cases hm
        · exact hlt z t t' (by simp; omega) (h z hm) (hg.parts hm) hr q (hi i _ q (by simp [hz]) hq)
            (hgy.parts (List.mem_of_getElem? hq))
  | array t t' n hr =>
    cases hx with
    | array _ xs h =>
      rw [copied_array, fromReflect_step hD'] at hy
      generalize hN : xs.length = N at hy
      cases hy with
      | array _ _ _ ys hys =>
        obtain ⟨hlen, hi⟩ := index_of_forall2 hys
        simp only [List.length_map] at hlen
        rw [copied_array]
        refine .array _ _ _ _ (by simp [hlen]) ?_
        intro i z w hz hw
        rw [List.getElem?_map] at hw
        obtain ⟨q, hq, rfl⟩ := Option.map_eq_some_iff.mp hw
        have hm := List.mem_of_getElem? hz
        have := List.sizeOf_lt_of_mem hm
        rcases hr with h0 | hr
        · rw [List.length_eq_zero_iff] at h0; subst h0; cases hm
        · exact hlt z t t' (by simp; omega) (h z hm) (hg.parts hm) hr q (hi i _ q (by simp [hz]) hq)
            (hgy.parts (List.mem_of_getElem? hq))
  | map k v k' v' hk hv =>
    cases hx with
    | map _ _ kvs h1 h2 h3 =>
      rw [copied_map] at hval hy
      obtain ⟨_, _, hs, hek, _⟩ := value_map hO' hval
      have hK0 := map_parts hg
      rw [fromReflect_step hD'] at hy
      cases hy with
      | map _ _ _ _ _ l hl' =>
        obtain ⟨hlen, hi⟩ := index_of_forall2 hl'
        have hkey : ∀ (i : Nat) e r, (entryCopy kvs)[i]? = some e → l[i]? = some r → r.1.copied = e.1 ∧ HasTy E' k' r.1 ∧
            HasTy E' v' r.2 := by
          intro i e r he hr
          have hem := List.mem_of_getElem? he
          obtain ⟨p, hp, rfl⟩ := entryCopy_mem hem
          obtain ⟨c1, c2⟩ := hi i _ r he hr
          refine ⟨hl p.1 r.1 (h2 p hp) ((convertsTo_iff hD').mpr c1), ?_, ?_⟩
          · exact fromReflect_sound hO' _ _ ⟨_, value_any (h2 p hp).copied⟩ c1
          · exact fromReflect_sound hO' _ _ ⟨_, value_any (h3 p hp).copied⟩ c2
        have hlk : ∀ r ∈ l, HasTy E' k' r.1 := by
          intro r hr
          obtain ⟨i, hi'⟩ := List.getElem?_of_mem hr
          obtain ⟨e, he⟩ := align_pos hlen hi'
          exact (hkey i e r he hi').2.1
        have hpw : l.Pairwise fun p q => E'.kcmp k' q.1 p.1 ≠ .eq := by
          rw [List.pairwise_iff_getElem]
          intro i j hil hjl hij heq
          have hri : l[i]? = some l[i] := List.getElem?_eq_getElem hil
          have hrj : l[j]? = some l[j] := List.getElem?_eq_getElem hjl
          obtain ⟨ei, hei⟩ := align_pos hlen hri
          obtain ⟨ej, hej⟩ := align_pos hlen hrj
          obtain ⟨a1, a2, _⟩ := hkey i ei _ hei hri
          obtain ⟨b1, b2, _⟩ := hkey j ej _ hej hrj
          have hv := (hF' k' _ _ b2 a2).mp heq
          have hlt := (List.pairwise_iff_getElem.mp hs) i j (by omega) (by omega) hij
          have e1 : (entryCopy kvs)[i]'(by omega) = ei := by
            have := List.getElem?_eq_getElem (l := entryCopy kvs) (i := i) (by omega)
            rw [hei] at this; cases this; rfl
          have e2 : (entryCopy kvs)[j]'(by omega) = ej := by
            have := List.getElem?_eq_getElem (l := entryCopy kvs) (i := j) (by omega)
            rw [hej] at this; cases this; rfl
          rw [e1, e2, ← a1, ← b1] at hlt
          have := hK' .value _ _ a2.copied b2.copied (by
            rw [copied_toValue ⟨_, a2⟩, copied_toValue ⟨_, b2⟩, Value.cmp_eq_iff] 
            rw [Value.cmp_eq_iff] at hv
            exact hv.symm)
          rw [this] at hlt
          cases hlt
        have hp1 : (bmOfList (E'.kcmp k') l).Perm l := bmOfList_perm hpw
        have hty : HasTy E' (.map k' v') (.map k' v' (bmOfList (E'.kcmp k') l)) := hyty
        obtain ⟨hs2, hk2, hv2⟩ := OK_map_parts hO' ⟨_, hty⟩
        have hp2 := entry_copies hO' hK' hs2 hk2
        have hmem : ∀ q, q ∈ entryCopy (bmOfList (E'.kcmp k') l) ↔ ∃ r ∈ l, q = (r.1.copied, r.2.copied) := by
          intro q
          rw [hp2.mem_iff, List.mem_map]
          constructor
          · rintro ⟨r, hr, rfl⟩; exact ⟨r, hp1.mem_iff.mp hr, rfl⟩
          · rintro ⟨r, hr, rfl⟩; exact ⟨r, hp1.mem_iff.mpr hr, rfl⟩
        have hmem0 := entry_copies hO hK h1 h2
        rw [copied_map]
        refine .map _ _ _ _ _ _ ?_ ?_ ?_
        · intro p hp
          have hpe : (p.1.copied, p.2.copied) ∈ entryCopy kvs := hmem0.mem_iff.mpr (List.mem_map.mpr ⟨p, hp, rfl⟩)
          obtain ⟨i, hi'⟩ := List.getElem?_of_mem hpe
          obtain ⟨r, hr⟩ := align_pos hlen.symm hi'
          exact ⟨_, (hmem _).mpr ⟨r, List.mem_of_getElem? hr, rfl⟩, (hkey i _ r hi' hr).1⟩
        · intro q hq
          obtain ⟨r, hr, rfl⟩ := (hmem q).mp hq
          obtain ⟨i, hi'⟩ := List.getElem?_of_mem hr
          obtain ⟨e, he⟩ := align_pos hlen hi'
          obtain ⟨p, hp, rfl⟩ := entryCopy_mem (List.mem_of_getElem? he)
          exact ⟨p, hp, (hkey i _ r he hi').1⟩
        · intro p q hp hq hpq
          obtain ⟨r, hr, rfl⟩ := (hmem q).mp hq
          obtain ⟨i, hi'⟩ := List.getElem?_of_mem hr
          obtain ⟨e, he⟩ := align_pos hlen hi'
          obtain ⟨p', hp', rfl⟩ := entryCopy_mem (List.mem_of_getElem? he)
          have h1' := (hkey i _ r he hi').1
          have hpp : p' = p := by
            refine sorted_key_unique (hO.cmpOn k) h2 h1 hp' hp ?_
            refine hK k _ _ (h2 p' hp') (h2 p hp) ?_
            have : p'.1.copied.toValue = p.1.copied.toValue := congrArg Obj.toValue (h1'.symm.trans hpq)
            rw [copied_toValue ⟨_, h2 p' hp'⟩, copied_toValue ⟨_, h2 p hp⟩] at this
            rw [this, Value.cmp_self]
          subst hpp
          have := sizeOf_snd_lt_of_mem hp
          refine hlt p'.2 v v' (by simp; omega) (h3 p' hp) (hK0.2 p' hp) hv r.2 (hi i _ r he hi').2 ?_
          exact (map_parts hgy).2 r (hp1.mem_iff.mpr hr)
  | unbox t _ hr =>
    cases hx with
    | box _ _ h => exact heq t b (by simp) h hr hy
  | box _ t hr =>
    rw [fromReflect_box] at hy
    exact heq a t (by simp) hx hr hy
  | value => exact dyn (.inl rfl)
  | structValue _ fds ht => exact dyn (.inr ((dyn_type hval).1 (structTy_kind ht hx)))
  | tupleStructValue _ fds ht => exact dyn (.inr ((dyn_type hval).2.1 (tupleStructTy_kind ht hx)))
  | tupleValue _ ts ht => exact dyn (.inr ((dyn_type hval).2.2.1 (tupleTy_kind ht hx)))
  | enumValue _ ht => exact dyn (.inr ((dyn_type hval).2.2.2 (enumTy_kind ht hx)))

/-- What a view reads only repeats what was written. -/
theorem view_echo {E E' : Env} (hD : DeclsOK E) (hO : OrdLaws E) (hK : KeysShown E) (hD' : DeclsOK E') (hO' : OrdLaws E')
    (hF' : KeysFaithful E') {R : Ty → Ty → Prop} (hR : ∀ a b, R a b → ReadStep E E' R a b ∧ Lossless E E' a b) (x y : Obj)
    (a b : Ty) (hx : HasTy E a x) (hg : x.NoGaps) (hab : R a b) (hy : fromReflect E' b x.copied = some y)
    (hgy : y.NoGaps) : Echo x y.copied :=
  view_step hD hO hK hD' hO' hF' hx hg (hR a b hab).1 (hR a b hab).2 hy hgy
    (fun z c d _ hc hz hr y' hy' hgy' => view_echo hD hO hK hD' hO' hF' hR z y' c d hc hz hr hy' hgy')
    (fun c d _ hc hr hy' => view_echo hD hO hK hD' hO' hF' hR x y c d hc hg hr hy' hgy)
termination_by (sizeOf x, sizeOf a + sizeOf b)

end Mirror
