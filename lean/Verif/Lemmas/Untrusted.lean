import Verif.Lemmas.Serde
import Verif.Lemmas.Sound
import Verif.Lemmas.Panic

set_option linter.unusedSimpArgs false

/-!
# `from_reflect` on untrusted values
-/

namespace Mirror

/-- The reflected content of some `Value`. -/
def IsValue (o : Obj) : Prop := ∃ v : Value, o = v.toObj

theorem IsValue.field {o x : Obj} {n : String} (h : IsValue o) (hx : o.field n = some x) :
    IsValue x := by
  obtain ⟨v, rfl⟩ := h
  have aux : ∀ {fs : List (String × Value)},
      lookup n (visFields (fs.map fun p => (p.1, p.2.toObj))) = some x → IsValue x := by
    intro fs h
    have hm := (List.mem_filter.1 (lookup_mem h)).1
    obtain ⟨q, _, hq⟩ := List.mem_map.1 hm
    cases hq; exact ⟨_, rfl⟩
  cases v <;> rw [Value.toObj] at hx <;> simp only [Obj.field, reduceCtorEq] at hx <;> exact aux hx

theorem IsValue.fieldAt {o x : Obj} {i : Nat} (h : IsValue o) (hx : o.fieldAt i = some x) :
    IsValue x := by
  obtain ⟨v, rfl⟩ := h
  have aux : ∀ {fs : List Value}, visAt (fs.map fun v => v.toObj) i = some x → IsValue x := by
    intro fs h
    obtain ⟨q, _, rfl⟩ := List.mem_map.1 (visAt_mem h); exact ⟨_, rfl⟩
  have aux2 : ∀ {n : String} {fs : List (String × Value)},
      lookup n (fs.map fun p => (p.1, p.2.toObj)) = some x → IsValue x := by
    intro n fs h
    obtain ⟨q, _, hq⟩ := List.mem_map.1 (lookup_mem h)
    cases hq; exact ⟨_, rfl⟩
  cases v <;> rw [Value.toObj] at hx <;> simp only [Obj.fieldAt, reduceCtorEq] at hx
  case struct ns fs => obtain ⟨n, _, h⟩ := Option.bind_eq_some_iff.mp hx; exact aux2 h
  case enumS v ns fs => obtain ⟨n, _, h⟩ := Option.bind_eq_some_iff.mp hx; exact aux2 h
  case list xs =>
    obtain ⟨q, _, rfl⟩ := List.mem_map.1 (List.mem_of_getElem? hx); exact ⟨_, rfl⟩
  all_goals exact aux hx

theorem IsValue.elem {t : Ty} {xs : List Obj} {x : Obj} (h : IsValue (.vec t xs)) (hx : x ∈ xs) :
    IsValue x := by
  obtain ⟨v, hv⟩ := h
  cases v <;> rw [Value.toObj] at hv <;> cases hv
  obtain ⟨q, _, rfl⟩ := List.mem_map.1 hx; exact ⟨_, rfl⟩

theorem IsValue.entry {k v : Ty} {kvs : List (Obj × Obj)} {p : Obj × Obj}
    (h : IsValue (.map k v kvs)) (hp : p ∈ kvs) : IsValue p.1 ∧ IsValue p.2 := by
  obtain ⟨v, hv⟩ := h
  cases v <;> rw [Value.toObj] at hv <;> cases hv
  obtain ⟨q, _, rfl⟩ := List.mem_map.1 hp; exact ⟨⟨_, rfl⟩, ⟨_, rfl⟩⟩

theorem IsValue.isTy {E : Env} {o : Obj} {t : Ty} (h : IsValue o) (ht : ¬ t.HasDynamic E)
    (hty : o.isTy t = true) : HasTy E t o := by
  obtain ⟨v, rfl⟩ := h
  cases v <;> rw [Value.toObj] at hty ⊢ <;>
    simp only [Obj.isTy, Obj.typeOf, beq_iff_eq, Option.some.injEq] at hty <;> subst hty
  case scalar s => exact .scalar s
  case list xs => exact absurd (.of_comp (u := .value) (by simp [Ty.comps]) ⟨_, .refl, trivial⟩) ht
  case map xs => exact absurd (.of_comp (u := .value) (by simp [Ty.comps]) ⟨_, .refl, trivial⟩) ht
  all_goals exact absurd ⟨_, .refl, trivial⟩ ht

/-- Whatever `fromReflect` builds from any `Value` at all is proper, if the target is static. -/
theorem fromReflect_static {E : Env} (hO : OrdLaws E) (t : Ty) (hT : ¬ t.HasDynamic E)
    (o : Obj) {y : Obj} (ho : IsValue o)
    (h : fromReflect E t o = some y) : HasTy E t y := by
  induction o using Obj.ind generalizing t y with
  | h o ihO =>
  generalize hn : sizeOf t = n at *
  induction n using Nat.strongRecOn generalizing t with
  | _ n ihT =>
  subst hn
  have named : ∀ (c : Bool) (fds : List FieldDef) (fs : List (String × Obj)),
      (∀ fd ∈ fds, fd.skip = false → ¬ fd.ty.HasDynamic E) →
      optAll (fds.map (convNamed E c o)) = some fs →
      fs.map (·.1) = fds.map (·.name) ∧
      (∀ (i : Nat) fd p, fds[i]? = some fd → fs[i]? = some p → fd.skip = true →
        p.2.isHidden = true) ∧
      (∀ (i : Nat) fd p, fds[i]? = some fd → fs[i]? = some p → fd.skip = false →
        HasTy E fd.ty p.2) := by
    intro c fds fs hst h
    obtain ⟨hl, h⟩ := optAll_map_inv h
    refine ⟨?_, ?_, ?_⟩
    · apply List.ext_getElem?
      intro i
      simp only [List.getElem?_map]
      cases hfd : fds[i]? with
      | none =>
        have : fs[i]? = none := by rw [List.getElem?_eq_none_iff] at hfd ⊢; omega
        simp [this]
      | some fd =>
        obtain ⟨p, hp⟩ := align_pos hl.symm hfd
        have := h i fd p hfd hp
        simp only [convNamed] at this
        split at this
        · cases this; simp [hp]
        · obtain ⟨v, _, this⟩ := Option.bind_eq_some_iff.mp this
          obtain ⟨y, _, rfl⟩ := Option.map_eq_some_iff.mp this
          simp [hp]
    · intro i fd p hfd hp hs
      have := h i fd p hfd hp
      simp [convNamed, hs] at this
      simp [← this, Obj.isHidden]
    · intro i fd p hfd hp hs
      have := h i fd p hfd hp
      simp only [convNamed, hs, Bool.false_eq_true, if_false] at this
      obtain ⟨v, hv, this⟩ := Option.bind_eq_some_iff.mp this
      obtain ⟨y, hy, rfl⟩ := Option.map_eq_some_iff.mp this
      have hsize := Obj.field_size hv
      simp only [convField] at hy
      split at hy
      · next hty => cases hy; simp at hty; exact (ho.field hv).isTy (hst _ (List.mem_of_getElem? hfd) hs) hty.2
      · exact ihO v hsize fd.ty (hst _ (List.mem_of_getElem? hfd) hs) (ho.field hv) hy
  have pos : ∀ (c : Bool) (fds : List FieldDef) (fs : List Obj),
      (∀ fd ∈ fds, fd.skip = false → ¬ fd.ty.HasDynamic E) →
      optAll (fds.mapIdx (convPos E c o)) = some fs →
      fs.length = fds.length ∧
      (∀ (i : Nat) fd p, fds[i]? = some fd → fs[i]? = some p → fd.skip = true →
        p.isHidden = true) ∧
      (∀ (i : Nat) fd p, fds[i]? = some fd → fs[i]? = some p → fd.skip = false →
        HasTy E fd.ty p) := by
    intro c fds fs hst h
    obtain ⟨hl, h⟩ := optAll_mapIdx_inv h
    refine ⟨hl, ?_, ?_⟩
    · intro i fd p hfd hp hs
      have := h i fd p hfd hp
      simp [convPos, hs] at this
      simp [← this, Obj.isHidden]
    · intro i fd p hfd hp hs
      have := h i fd p hfd hp
      simp only [convPos, hs, Bool.false_eq_true, if_false] at this
      obtain ⟨v, hv, hy⟩ := Option.bind_eq_some_iff.mp this
      have hsize := Obj.fieldAt_size hv
      simp only [convField] at hy
      split at hy
      · next hty => cases hy; simp at hty; exact (ho.fieldAt hv).isTy (hst _ (List.mem_of_getElem? hfd) hs) hty.2
      · exact ihO v hsize fd.ty (hst _ (List.mem_of_getElem? hfd) hs) (ho.fieldAt hv) hy
  match t, hT, h with
  | .scalar k, hT, h =>
    rw [fromReflect_scalar] at h
    split at h
    · next hty => cases h; exact ho.isTy hT hty
    · cases h
  | .nonzero k, hT, h =>
    rw [fromReflect_nonzero] at h
    split at h
    · next hty => cases h; exact ho.isTy hT hty
    · split at h
      · split at h
        · next hh => cases h; exact .nonzero k _ hh.2
        · cases h
      · cases h
  | .named n, hT, h =>
    cases hd : E.decl n with
    | none => rw [fromReflect_nodecl hd] at h; cases h
    | some d =>
      obtain ⟨sh, c⟩ := d
      cases sh with
      | struct fds =>
        rw [fromReflect_struct hd] at h
        split at h
        · obtain ⟨fs, hfs, rfl⟩ := Option.map_eq_some_iff.mp h
          obtain ⟨a, b, c'⟩ := named c fds fs (fun fd hfd hs hy => hT (.of_comp (by
            simp only [Ty.comps, hd]
            exact List.mem_map.mpr ⟨fd, List.mem_filter.mpr ⟨hfd, by simp [hs]⟩, rfl⟩) hy)) hfs
          exact .struct n fds c fs hd a b c'
        · cases h
      | tupleStruct fds =>
        rw [fromReflect_tupleStruct hd] at h
        split at h
        · obtain ⟨fs, hfs, rfl⟩ := Option.map_eq_some_iff.mp h
          obtain ⟨a, b, c'⟩ := pos c fds fs (fun fd hfd hs hy => hT (.of_comp (by
            simp only [Ty.comps, hd]
            exact List.mem_map.mpr ⟨fd, List.mem_filter.mpr ⟨hfd, by simp [hs]⟩, rfl⟩) hy)) hfs
          exact .tupleStruct n fds c fs hd a b c'
        · cases h
      | enum vds =>
        rw [fromReflect_enum hd] at h
        obtain ⟨vn, _, h⟩ := Option.bind_eq_some_iff.mp h
        obtain ⟨vd, hvd, h⟩ := Option.bind_eq_some_iff.mp h
        have hm := List.mem_of_find?_eq_some hvd
        cases vd with
        | struct vn fds =>
          obtain ⟨fs, hfs, rfl⟩ := Option.map_eq_some_iff.mp h
          obtain ⟨a, b, c'⟩ := named c fds fs (fun fd hfd hs hy => hT (.of_comp (by
            simp only [Ty.comps, hd]
            refine List.mem_flatMap.mpr ⟨_, hm, ?_⟩
            exact List.mem_map.mpr ⟨fd, List.mem_filter.mpr ⟨hfd, by simp [hs]⟩, rfl⟩) hy)) hfs
          exact .enumS n vds c vn fds fs hd hm a b c'
        | tuple vn fds =>
          obtain ⟨fs, hfs, rfl⟩ := Option.map_eq_some_iff.mp h
          obtain ⟨a, b, c'⟩ := pos c fds fs (fun fd hfd hs hy => hT (.of_comp (by
            simp only [Ty.comps, hd]
            refine List.mem_flatMap.mpr ⟨_, hm, ?_⟩
            exact List.mem_map.mpr ⟨fd, List.mem_filter.mpr ⟨hfd, by simp [hs]⟩, rfl⟩) hy)) hfs
          exact .enumT n vds c vn fds fs hd hm a b c'
        | unit vn => cases h; exact .enumU n vds c vn hd hm
  | .tuple ts, hT, h =>
    rw [fromReflect_tuple] at h
    split at h
    · obtain ⟨fs, hfs, rfl⟩ := Option.map_eq_some_iff.mp h
      obtain ⟨hl, hi⟩ := optAll_mapIdx_inv hfs
      refine .tuple ts fs hl ?_
      intro i t x ht hx
      obtain ⟨v, hv, hy⟩ := Option.bind_eq_some_iff.mp (hi i t x ht hx)
      have hsize := Obj.fieldAt_size hv
      exact ihO v hsize t (fun hy => hT (.of_comp (by simp only [Ty.comps]; exact List.mem_of_getElem? ht) hy)) (ho.fieldAt hv) hy
    · cases h
  | .vec t, hT, h =>
    cases o <;> simp [fromReflect] at h
    rename_i u xs
    obtain ⟨ys, hys, rfl⟩ := h
    obtain ⟨hl, hi⟩ := optAll_map_inv hys
    refine .vec t ys ?_
    intro y hy
    obtain ⟨i, hyi⟩ := List.getElem?_of_mem hy
    obtain ⟨x, hx⟩ := align_pos hl hyi
    have hsize := sizeOf_lt_of_getElem? hx
    exact ihO x (by simp; omega) t (fun hy => hT (.of_comp (by simp [Ty.comps]) hy)) (ho.elem (List.mem_of_getElem? hx)) (hi i x y hx hyi)
  | .array t n, hT, h =>
    cases o <;> (first | (simp [fromReflect] at h; done) | skip)
    rename_i u xs
    rw [fromReflect_array] at h
    obtain ⟨ys, hys, h⟩ := Option.bind_eq_some_iff.mp h
    split at h
    · next hn =>
      cases h; subst hn
      obtain ⟨hl, hi⟩ := optAll_map_inv hys
      refine .array t ys ?_
      intro y hy
      obtain ⟨i, hyi⟩ := List.getElem?_of_mem hy
      obtain ⟨x, hx⟩ := align_pos hl hyi
      have hsize := sizeOf_lt_of_getElem? hx
      exact ihO x (by simp; omega) t (fun hy => hT (.of_comp (by simp [Ty.comps]) hy)) (ho.elem (List.mem_of_getElem? hx)) (hi i x y hx hyi)
    · cases h
  | .map kt vt, hT, h =>
    cases o <;> (first | (simp [fromReflect] at h; done) | skip)
    rename_i u w kvs
    rw [fromReflect_map] at h
    obtain ⟨ys, hys, rfl⟩ := Option.map_eq_some_iff.mp h
    obtain ⟨hl, hi⟩ := optAll_map_inv hys
    have hall : ∀ p ∈ ys, HasTy E kt p.1 ∧ HasTy E vt p.2 := by
      intro y hy
      obtain ⟨i, hyi⟩ := List.getElem?_of_mem hy
      obtain ⟨x, hx⟩ := align_pos hl hyi
      have hm := List.mem_of_getElem? hx
      have h1 := sizeOf_fst_lt_of_mem hm
      have h2 := sizeOf_snd_lt_of_mem hm
      obtain ⟨k, hk, hh⟩ := Option.bind_eq_some_iff.mp (hi i x y hx hyi)
      obtain ⟨v, hv, rfl⟩ := Option.map_eq_some_iff.mp hh
      exact ⟨ihO x.1 (by simp; omega) kt (fun hy => hT (.of_comp (by simp [Ty.comps]) hy)) (ho.entry hm).1 hk,
        ihO x.2 (by simp; omega) vt (fun hy => hT (.of_comp (by simp [Ty.comps]) hy)) (ho.entry hm).2 hv⟩
    exact .map kt vt _ (bmOfList_sorted (hO.cmpOn kt) fun p hp => (hall p hp).1)
      (bmOfList_keys (hO.cmpOn kt) fun p hp => (hall p hp).1)
      (bmOfList_vals fun p hp => (hall p hp).2)
  | .box t, hT, h =>
    rw [fromReflect_box] at h
    exact .box t y (ihT (sizeOf t) (by simp) t (fun hy => hT (.of_comp (by simp [Ty.comps]) hy)) h rfl)
  | .value, hT, h | .structValue, hT, h | .tupleStructValue, hT, h | .tupleValue, hT, h
  | .enumValue, hT, h => exact absurd ⟨_, .refl, trivial⟩ hT

end Mirror
