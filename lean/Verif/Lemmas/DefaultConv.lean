import Verif.Lemmas.Default
import Verif.Lemmas.Sound
import Verif.Spec.Default

set_option linter.unusedSimpArgs false

/-!
# Default values convert to their type
-/

namespace Mirror

variable {E : Env}

/-- The value converts to the type, and nothing is lost. -/
def Conv (E : Env) (t : Ty) (v : Value) : Prop :=
  v.WF ∧ ∃ y, fromReflect E t v.toObj = some y ∧ y.toValue = v ∧ y.isHidden = false

theorem Conv.box {t : Ty} {v : Value} (h : Conv E t v) : Conv E (.box t) v := by
  obtain ⟨hw, y, hy, h1, h2⟩ := h
  exact ⟨hw, y, by rw [fromReflect_box, hy], h1, h2⟩

theorem conv_unbox {t : Ty} {v : Value} (h : Conv E t.unbox v) : Conv E t v := by
  induction t using Ty.unbox.induct with
  | case1 t ih => exact (ih h).box
  | case2 t ht => rw [Ty.unbox] at h; exact h; exact ht

theorem Conv.field {t : Ty} {v : Value} (h : Conv E t v) (c : Bool) :
    ∃ y, convField E c t v.toObj = some y ∧ y.toValue = v ∧ y.isHidden = false := by
  obtain ⟨hw, y, hy, h1, h2⟩ := h
  rw [convField]
  split
  · exact ⟨_, rfl, Value.toObj_toValue hw, v.toObj_not_hidden⟩
  · exact ⟨y, hy, h1, h2⟩

/-- Named fields, when the source has all of them. -/
theorem conv_named_all {c : Bool} {src : Obj} {fds : List FieldDef} {vs : List Value}
    (h : List.Forall₂ (fun fd v => Conv E fd.ty v ∧ src.field fd.name = some v.toObj) (visDefs fds) vs) :
    ∃ fs, optAll (fds.map (convNamed E c src)) = some fs ∧
      (visFields fs).map (fun p => (p.1, p.2.toValue)) = ((visDefs fds).map (·.name)).zip vs := by
  induction fds generalizing vs with
  | nil => cases h; exact ⟨[], rfl, rfl⟩
  | cons fd fds ih =>
    cases hs : fd.skip with
    | true =>
      have e : visDefs (fd :: fds) = visDefs fds := by simp [visDefs, hs]
      rw [e] at h ⊢
      obtain ⟨fs, h1, h2⟩ := ih h
      refine ⟨(fd.name, .hidden 0) :: fs, ?_, ?_⟩
      · simp [optAll, convNamed, hs, h1]
      · simpa [visFields, Obj.isHidden] using h2
    | false =>
      have e : visDefs (fd :: fds) = fd :: visDefs fds := by simp [visDefs, hs]
      rw [e] at h ⊢
      cases h with
      | cons hv h =>
      obtain ⟨fs, h1, h2⟩ := ih h
      obtain ⟨y, hy, hy1, hy2⟩ := hv.1.field c
      refine ⟨(fd.name, y) :: fs, ?_, ?_⟩
      · simp [optAll, convNamed, hs, h1, hv.2, hy]
      · simpa [visFields, hy2, hy1] using h2

/-- Positional fields with skipped ones last. -/
theorem visDefs_append {fds : List FieldDef}
    (hl : ∀ (i j : Nat) fd fd', fds[i]? = some fd → fds[j]? = some fd' → fd.skip = true →
      fd'.skip = false → j < i) :
    fds = visDefs fds ++ fds.filter (·.skip) := by
  induction fds with
  | nil => rfl
  | cons fd fds ih =>
    have hl' : ∀ (i j : Nat) fd fd', fds[i]? = some fd → fds[j]? = some fd' → fd.skip = true →
        fd'.skip = false → j < i := fun i j a b ha hb h1 h2 => by
      have := hl (i + 1) (j + 1) a b (by simpa using ha) (by simpa using hb) h1 h2
      omega
    cases hs : fd.skip with
    | false =>
      conv => lhs; rw [ih hl']
      simp [visDefs, hs]
    | true =>
      have hall : ∀ x ∈ fds, x.skip = true := by
        intro x hx
        obtain ⟨j, hj⟩ := List.getElem?_of_mem hx
        cases hxs : x.skip with
        | true => rfl
        | false =>
          have := hl 0 (j + 1) fd x rfl (by simpa using hj) hs hxs
          omega
      have e1 : visDefs (fd :: fds) = [] := by
        rw [visDefs, List.filter_eq_nil_iff]
        intro x hx
        rcases List.mem_cons.mp hx with rfl | hx
        · simp [hs]
        · simp [hall x hx]
      have e2 : (fd :: fds).filter (·.skip) = fd :: fds := by
        rw [List.filter_eq_self]
        intro x hx
        rcases List.mem_cons.mp hx with rfl | hx
        · exact hs
        · exact hall x hx
      rw [e1, e2]; rfl

theorem conv_pos_aux {c : Bool} {src : Obj} {fds : List FieldDef} {vs : List Value} {k : Nat}
    (hns : ∀ fd ∈ fds, fd.skip = false)
    (h : List.Forall₂ (fun fd v => Conv E fd.ty v) fds vs)
    (hsrc : ∀ i, src.fieldAt (i + k) = (vs[i]?).map fun v => v.toObj) :
    ∃ fs, fds.mapIdx (fun i fd => convPos E c src (i + k) fd) = fs.map some ∧
      visPos fs = fs ∧ fs.map (fun x => x.toValue) = vs := by
  induction h generalizing k with
  | nil => exact ⟨[], rfl, rfl, rfl⟩
  | @cons fd v fds vs hv _ ih =>
    obtain ⟨fs, h1, h2, h3⟩ := ih (k := k + 1) (fun x hx => hns x (by simp [hx])) (fun i => by
      rw [show i + (k + 1) = (i + 1) + k by omega, hsrc]; simp)
    obtain ⟨y, hy, hy1, hy2⟩ := hv.field c
    refine ⟨y :: fs, ?_, ?_, ?_⟩
    · rw [List.mapIdx_cons]
      have h0 : src.fieldAt (0 + k) = some v.toObj := by rw [hsrc]; rfl
      have : (fun i fd => convPos E c src (i + 1 + k) fd) = fun i fd => convPos E c src (i + (k + 1)) fd := by
        funext i fd; rw [show i + 1 + k = i + (k + 1) by omega]
      rw [this, h1]
      simp only [convPos, hns fd (by simp), Bool.false_eq_true, if_false, h0, Option.bind_some, hy,
        List.map_cons]
    · simp only [visPos, List.filter_cons, hy2, Bool.not_false, if_true]
      rw [show fs.filter (fun x => !x.isHidden) = fs from h2]
    · simp [h3, hy1]

theorem conv_tuple_aux {src : Obj} {ts : List Ty} {vs : List Value} {k : Nat}
    (h : List.Forall₂ (fun t v => Conv E t v) ts vs)
    (hsrc : ∀ i, src.fieldAt (i + k) = (vs[i]?).map fun v => v.toObj) :
    ∃ fs, ts.mapIdx (fun i t => (src.fieldAt (i + k)).bind fun v => fromReflect E t v) = fs.map some ∧
      visPos fs = fs ∧ fs.map (fun x => x.toValue) = vs := by
  induction h generalizing k with
  | nil => exact ⟨[], rfl, rfl, rfl⟩
  | @cons t v ts vs hv _ ih =>
    obtain ⟨fs, h1, h2, h3⟩ := ih (k := k + 1) (fun i => by
      rw [show i + (k + 1) = (i + 1) + k by omega, hsrc]; simp)
    obtain ⟨_, y, hy, hy1, hy2⟩ := hv
    refine ⟨y :: fs, ?_, ?_, ?_⟩
    · rw [List.mapIdx_cons]
      have h0 : src.fieldAt (0 + k) = some v.toObj := by rw [hsrc]; rfl
      have : (fun i t => (src.fieldAt (i + 1 + k)).bind fun v => fromReflect E t v) =
          fun i t => (src.fieldAt (i + (k + 1))).bind fun v => fromReflect E t v := by
        funext i fd; rw [show i + 1 + k = i + (k + 1) by omega]
      rw [this, h1, h0, Option.bind_some, hy, List.map_cons]
    · simp only [visPos, List.filter_cons, hy2, Bool.not_false, if_true]
      rw [show fs.filter (fun x => !x.isHidden) = fs from h2]
    · simp [h3, hy1]

theorem conv_pos_all {c : Bool} {src : Obj} {fds : List FieldDef} {vs : List Value}
    (hl : ∀ (i j : Nat) fd fd', fds[i]? = some fd → fds[j]? = some fd' → fd.skip = true →
      fd'.skip = false → j < i)
    (h : List.Forall₂ (fun fd v => Conv E fd.ty v) (visDefs fds) vs)
    (hsrc : ∀ i, src.fieldAt i = (vs[i]?).map fun v => v.toObj) :
    ∃ fs, optAll (fds.mapIdx (convPos E c src)) = some fs ∧
      (visPos fs).map (fun x => x.toValue) = vs := by
  obtain ⟨fs, h1, h2, h3⟩ := conv_pos_aux (E := E) (c := c) (src := src) (k := 0) (by
    intro fd hfd
    simpa using (List.mem_filter.mp hfd).2) h (by simpa using hsrc)
  refine ⟨fs ++ (fds.filter (·.skip)).map fun _ => Obj.hidden 0, ?_, ?_⟩
  · rw [optAll_eq_some]
    conv => lhs; rw [visDefs_append hl]
    rw [List.mapIdx_append, List.map_append]
    refine congrArg₂ (· ++ ·) (by simpa using h1) ?_
    · apply List.ext_getElem?
      intro i
      simp only [List.getElem?_mapIdx, List.getElem?_map, Option.map_map]
      cases hi : (fds.filter (·.skip))[i]? with
      | none => rfl
      | some fd =>
        have := (List.mem_filter.mp (List.mem_of_getElem? hi)).2
        simp [convPos, this]
  · have : visPos ((fds.filter (·.skip)).map fun _ => Obj.hidden 0) = [] := by
      rw [visPos, List.filter_eq_nil_iff]
      intro x hx
      obtain ⟨_, _, rfl⟩ := List.mem_map.mp hx
      simp [Obj.isHidden]
    rw [show visPos (fs ++ (fds.filter (·.skip)).map fun _ => Obj.hidden 0) =
      visPos fs ++ visPos ((fds.filter (·.skip)).map fun _ => Obj.hidden 0) from List.filter_append ..,
      this, List.append_nil, h2, h3]

theorem conv_values {t : Ty} {vs : List Value} (h : ∀ v ∈ vs, Conv E t v) :
    ∃ ys, optAll ((vs.map fun v => v.toObj).map fun x => fromReflect E t x) = some ys ∧
      ys.map (fun x => x.toValue) = vs := by
  induction vs with
  | nil => exact ⟨[], rfl, rfl⟩
  | cons v vs ih =>
    obtain ⟨ys, h1, h2⟩ := ih fun w hw => h w (by simp [hw])
    obtain ⟨_, y, hy, hy1, _⟩ := h v (by simp)
    exact ⟨y :: ys, by simp only [List.map_cons, optAll, hy, h1, Option.bind_some, Option.map_some],
      by simp [h2, hy1]⟩

/-- Struct-like fields set one by one. -/
theorem zip_fields {fds : List FieldDef} {vs : List Value} (hn : (fds.map (·.name)).Nodup)
    (h : List.Forall₂ (fun fd v => Conv E fd.ty v) (visDefs fds) vs) {src : Obj}
    (hsrc : ∀ n, src.field n = lookup n (visFields ((bmOfList strCmp
      (((visDefs fds).map (·.name)).zip vs)).map fun p => (p.1, p.2.toObj)))) :
    List.Forall₂ (fun fd v => Conv E fd.ty v ∧ src.field fd.name = some v.toObj) (visDefs fds) vs ∧
    (∀ p ∈ ((visDefs fds).map (·.name)).zip vs, p.2.WF) ∧
    (((visDefs fds).map (·.name)).zip vs).map (·.1) = (visDefs fds).map (·.name) := by
  have hlen := h.length_eq
  have e1 : (((visDefs fds).map (·.name)).zip vs).map (·.1) = (visDefs fds).map (·.name) :=
    List.map_fst_zip (by simp [hlen])
  have hnd : ((((visDefs fds).map (·.name)).zip vs).map (·.1)).Nodup := by
    rw [e1]; exact hn.sublist ((List.filter_sublist).map _)
  refine ⟨?_, ?_, e1⟩
  · rw [List.forall₂_iff_get] at h ⊢
    refine ⟨h.1, fun i h1 h2 => ⟨h.2 i h1 h2, ?_⟩⟩
    rw [hsrc, toObj_visFields, lookup_map,
      lookup_of_mem_nodup (x := vs.get ⟨i, h2⟩)
        (((bmOfList_str_perm hnd).map _).nodup_iff.mpr hnd)
        ((bmOfList_str_perm hnd).mem_iff.mpr ?_)]
    · rfl
    · rw [List.mem_iff_getElem]
      exact ⟨i, by simp; omega, by simp⟩
  · intro p hp
    obtain ⟨i, hi, rfl⟩ := List.mem_iff_getElem.mp hp
    rw [List.forall₂_iff_get] at h
    simp only [List.getElem_zip]
    simp only [List.length_zip, List.length_map] at hi
    exact (h.2 i (by omega) (by omega)).1

/-- Nothing needed for the default has a skipped field in the way. -/
def NeedsClean (E : Env) (t : Ty) : Prop := ∀ u, t.Needs E u → ¬ u.DefaultGap E

theorem Ty.Needs.head {t u w : Ty} {us : List Ty} (h : t.needs E false = some us) (hu : u ∈ us)
    (hw : u.Needs E w) : t.Needs E w := by
  induction hw with
  | refl => exact .step _ _ _ .refl h hu
  | step a b bs _ h1 h2 ih => exact .step _ _ _ ih h1 h2

theorem NeedsClean.of_needs {t u : Ty} {us : List Ty} (h : NeedsClean E t)
    (hn : t.needs E false = some us) (hu : u ∈ us) : NeedsClean E u :=
  fun w hw => h w (.head hn hu hw)

theorem NeedsClean.mk' {t : Ty} (h : ¬ t.DefaultGap E)
    (hu : ∀ us, t.needs E false = some us → ∀ u ∈ us, NeedsClean E u) : NeedsClean E t := by
  have : ∀ w, t.Needs E w → w = t ∨ NeedsClean E w := by
    intro w hw
    induction hw with
    | refl => exact .inl rfl
    | step a b bs _ h1 h2 ih =>
      rcases ih with rfl | ih
      · exact .inr (hu _ h1 _ h2)
      · exact .inr (ih.of_needs h1 h2)
  intro w hw
  rcases this w hw with rfl | h'
  · exact h
  · exact h' w .refl

theorem NeedsClean.mk {t : Ty} {us : List Ty} (h : ¬ t.DefaultGap E)
    (hn : t.needs E false = some us) (hu : ∀ u ∈ us, NeedsClean E u) : NeedsClean E t :=
  .mk' h fun us' h' => by rw [hn] at h'; cases h'; exact hu

theorem Ty.DefaultGap.named {t : Ty} (h : t.DefaultGap E) : ∃ n, t = .named n := by
  obtain ⟨n, _, rfl, _⟩ := h; exact ⟨n, rfl⟩

theorem NeedsClean.box_iff {t : Ty} : NeedsClean E (.box t) ↔ NeedsClean E t := by
  constructor
  · exact fun h => h.of_needs rfl (by simp)
  · exact fun h => .mk (us := [t]) (fun h => by obtain ⟨n, h⟩ := Ty.DefaultGap.named h; cases h) rfl (by simpa using h)

theorem NeedsClean.unbox_iff {t : Ty} : NeedsClean E t.unbox ↔ NeedsClean E t := by
  induction t using Ty.unbox.induct with
  | case1 t ih => rw [Ty.unbox, ih, NeedsClean.box_iff]
  | case2 t ht => rw [Ty.unbox]; exact ht

theorem SkipsLast.clean (hS : SkipsLast E) (t : Ty) : NeedsClean E t := by
  rintro u _ ⟨n, c, rfl, ⟨fds, hd, i, j, fi, fj, h1, h2, h3, h4, h5⟩ |
    ⟨vn, fds, vds, hd, i, j, fi, fj, h1, h2, h3, h4, h5⟩⟩
  · have := hS.1 _ _ _ hd i j fi fj h1 h2 h3 h4; omega
  · have := hS.2 _ _ _ _ _ hd List.mem_cons_self i j fi fj h1 h2 h3 h4; omega

theorem SkipGap.last {fds : List FieldDef} (h : ¬ SkipGap fds) :
    ∀ (i j : Nat) fd fd', fds[i]? = some fd → fds[j]? = some fd' → fd.skip = true →
      fd'.skip = false → j < i := by
  intro i j fd fd' h1 h2 h3 h4
  by_contra hc
  have : i ≠ j := by rintro rfl; rw [h1] at h2; cases h2; rw [h3] at h4; cases h4
  exact h ⟨i, j, fd, fd', h1, h2, h3, h4, by omega⟩

theorem forall2_imp_mem {α β : Type _} {R S : α → β → Prop} {as : List α} {bs : List β}
    (h : List.Forall₂ R as bs) (hs : ∀ a b, a ∈ as → R a b → S a b) : List.Forall₂ S as bs := by
  induction h with
  | nil => exact .nil
  | cons h _ ih => exact .cons (hs _ _ (by simp) h) (ih fun a b ha => hs a b (by simp [ha]))

theorem default_conv {g : TypeGraph} (hD : DeclsOK E) (hG : GraphOK E g) :
    ∀ fuel id v, NeedsClean E id → defaultValue g fuel id = some (some v) → Conv E id v
  | 0, _, _, _, h => by cases h
  | fuel + 1, id, v, hC, h => by
    have IH := default_conv hD hG fuel
    cases hn : g.node id with
    | none => simp [defaultValue, hn] at h
    | some node =>
    obtain ⟨hd, hc⟩ := hG id node hn
    have pos : ∀ {ts : List Ty} {vs}, id.needs E false = some ts →
        defaultPos (defaultValue g fuel) (ts.map Ty.unbox) = some (some vs) →
        List.Forall₂ (fun t v => Conv E t v) ts vs := by
      intro ts vs hN h
      rw [defaultPos_some, List.forall₂_map_left_iff] at h
      exact forall2_imp_mem h fun t v ht hv =>
        conv_unbox (IH _ _ (NeedsClean.unbox_iff.mpr (hC.of_needs hN ht)) hv)
    have posF : ∀ {fds : List FieldDef} {vs},
        id.needs E false = some ((fds.filter fun fd => !fd.skip).map (·.ty)) →
        defaultPos (defaultValue g fuel) ((fds.filter fun fd => !fd.skip).map fun fd => fd.ty.unbox) =
          some (some vs) →
        List.Forall₂ (fun fd v => Conv E fd.ty v) (visDefs fds) vs := by
      intro fds vs hN h
      rw [defaultPos_some, List.forall₂_map_left_iff] at h
      exact forall2_imp_mem h fun t v ht hv =>
        conv_unbox (IH _ _ (NeedsClean.unbox_iff.mpr (hC.of_needs hN (List.mem_map_of_mem ht))) hv)
    have nam : ∀ {fds : List FieldDef} {names fields l},
        id.needs E false = some ((fds.filter fun fd => !fd.skip).map (·.ty)) →
        namedTypes names fields = (fds.filter fun fd => !fd.skip).map (fun fd => (fd.name, some fd.ty.unbox)) →
        defaultNamed (defaultValue g fuel) (namedTypes names fields) = some (some l) →
        ∃ vs, l = ((visDefs fds).map (·.name)).zip vs ∧
          List.Forall₂ (fun fd v => Conv E fd.ty v) (visDefs fds) vs := by
      intro fds names fields l hN hf h
      rw [hf, defaultNamed_eq] at h
      obtain ⟨r, hr, h2⟩ := Option.map_eq_some_iff.mp h
      obtain ⟨vs, rfl, h3⟩ := Option.map_eq_some_iff.mp h2
      exact ⟨vs, h3.symm, posF hN hr⟩
    have wf : ∀ {α : Type} {ty : α → Ty} {as : List α} {vs},
        List.Forall₂ (fun a v => Conv E (ty a) v) as vs → ∀ v ∈ vs, v.WF := by
      intro α ty as vs h v hv
      obtain ⟨i, hi⟩ := List.getElem?_of_mem hv
      obtain ⟨_, _, h⟩ := forall2_right h hi
      exact h.1
    have opt : ∀ {α β : Type} {x : Option (Option α)} {f : α → β} {b},
        x.map (Option.map f) = some (some b) → ∃ a, x = some (some a) ∧ f a = b := by
      intro α β x f b h
      obtain ⟨r, rfl, h2⟩ := Option.map_eq_some_iff.mp h
      obtain ⟨a, rfl, h3⟩ := Option.map_eq_some_iff.mp h2
      exact ⟨a, rfl, h3⟩
    cases hd with
    | scalar k =>
      simp only [defaultValue, hn, Option.some.injEq] at h; subst h
      refine ⟨.scalar _, .scalar k.default, ?_, by simp [Obj.toValue], rfl⟩
      rw [Value.toObj, fromReflect_scalar]; cases k <;> simp [ScalarKind.default, Obj.isTy, Obj.typeOf, Scalar.kind]
    | nonzero k => simp [defaultValue, hn] at h
    | value => simp [defaultValue, hn] at h
    | structValue => simp [defaultValue, hn] at h
    | tupleStructValue => simp [defaultValue, hn] at h
    | tupleValue => simp [defaultValue, hn] at h
    | enumValue => simp [defaultValue, hn] at h
    | vec t =>
      simp only [defaultValue, hn, Option.some.injEq] at h; subst h
      refine ⟨.list _ (by simp), .vec t [], ?_, by simp [Obj.toValue], rfl⟩
      rw [Value.toObj, fromReflect_vec]; rfl
    | map k w =>
      simp only [defaultValue, hn, Option.some.injEq] at h; subst h
      refine ⟨.map _ .nil (by simp) (by simp), .map k w [], ?_, by simp [Obj.toValue, bmCollect], rfl⟩
      rw [Value.toObj, fromReflect_map]; rfl
    | array t n =>
      simp only [defaultValue, hn, replicate_unbox] at h
      obtain ⟨vs, hx, rfl⟩ := opt h; clear h
      have := pos rfl hx
      have hlen := this.length_eq
      have hv : ∀ v ∈ vs, Conv E t v := by
        intro v hv
        obtain ⟨i, hi⟩ := List.getElem?_of_mem hv
        obtain ⟨u, hu, h⟩ := forall2_right this hi
        rwa [List.eq_of_mem_replicate (List.mem_of_getElem? hu)] at h
      obtain ⟨ys, h1, h2⟩ := conv_values hv
      have hl : ys.length = n := by
        have := congrArg List.length h2
        simp at this hlen; omega
      refine ⟨.list _ fun v h => (hv v h).1, .array t ys, ?_, by simp [Obj.toValue, h2], rfl⟩
      rw [Value.toObj, fromReflect_array, h1]
      simp [hl]
    | tuple ts =>
      simp only [defaultValue, hn] at h
      obtain ⟨vs, hx, rfl⟩ := opt h; clear h
      have h := pos rfl hx
      obtain ⟨fs, h1, h2, h3⟩ := conv_tuple_aux (src := (Value.tuple vs).toObj) (k := 0) h
        (fun i => by simp only [Nat.add_zero, Value.toObj, Obj.fieldAt, toObj_visAt])
      refine ⟨.tuple _ (wf (ty := id) h), .tuple (.typed ts) fs, ?_, ?_, rfl⟩
      · rw [fromReflect_tuple]
        have : optAll (ts.mapIdx fun i t => ((Value.tuple vs).toObj.fieldAt i).bind fun v =>
            fromReflect E t v) = some fs := optAll_eq_some.mpr h1
        rw [this]; simp [Value.toObj, Obj.kind]
      · rw [Obj.toValue, ← h3]
    | struct n fds c names fields hdecl hf hlen hso =>
      simp only [defaultValue, hn] at h
      obtain ⟨l, hx, rfl⟩ := opt h; clear h
      obtain ⟨vs, rfl, h⟩ := nam (by simp [Ty.needs, hdecl]) hf hx
      obtain ⟨h1, hw, hk⟩ := zip_fields (hD.struct_names _ _ _ hdecl) h
        (src := (Value.struct (svOfList (((visDefs fds).map (·.name)).zip vs)).1
          (svOfList (((visDefs fds).map (·.name)).zip vs)).2).toObj)
        (fun n => by simp only [svOfList_eq, Value.toObj, Obj.field])
      obtain ⟨fs, h2, h3⟩ := conv_named_all (c := c) h1
      refine ⟨by rw [svOfList_eq]; exact svWF hw, .struct (.derived n) fs, ?_, ?_, rfl⟩
      · rw [fromReflect_struct hdecl, h2]; simp [Value.toObj, Obj.kind]
      · rw [toValue_struct, h3, svOfList_eq, hk]
        have := congrArg (List.map (·.1)) h3
        rw [hk, List.map_map] at this
        exact congrArg (fun x => Value.struct x _) this
    | tupleStruct n fds c hdecl =>
      simp only [defaultValue, hn] at h
      obtain ⟨vs, hx, rfl⟩ := opt h; clear h
      have h := posF (by simp [Ty.needs, hdecl]) hx
      obtain ⟨fs, h1, h2⟩ := conv_pos_all (c := c) (src := (Value.tupleStruct vs).toObj)
        (SkipGap.last fun hg => hC _ .refl ⟨_, _, rfl, .inl ⟨_, hdecl, hg⟩⟩) h (fun i => by simp only [Value.toObj, Obj.fieldAt, toObj_visAt])
      refine ⟨.tupleStruct _ (wf h), .tupleStruct (.derived n) fs, ?_, by rw [toValue_tupleStruct, h2], rfl⟩
      rw [fromReflect_tupleStruct hdecl, h1]; simp [Value.toObj, Obj.kind]
    | enum n vds c vs hdecl hl hvs =>
      cases vs with
      | nil => simp [defaultValue, hn] at h
      | cons v vs =>
      cases vds with
      | nil => simp at hl
      | cons vd vds =>
        have hv := hvs 0 vd v rfl rfl
        simp only [defaultValue, hn] at h
        cases hv with
        | struct vn fds names fields hf hlen hso =>
          simp only [defaultVariant] at h
          obtain ⟨l, hx, rfl⟩ := opt h; clear h
          obtain ⟨vs, rfl, h⟩ := nam (by simp [Ty.needs, hdecl]) hf hx
          obtain ⟨h1, hw, hk⟩ := zip_fields
            (hD.variant_fields _ _ _ _ _ hdecl List.mem_cons_self) h
            (src := (Value.enumS vn (svOfList (((visDefs fds).map (·.name)).zip vs)).1
              (svOfList (((visDefs fds).map (·.name)).zip vs)).2).toObj)
            (fun n => by simp only [svOfList_eq, Value.toObj, Obj.field])
          obtain ⟨fs, h2, h3⟩ := conv_named_all (c := c) h1
          refine ⟨by rw [svOfList_eq]; exact evWF hw, .enumS (.derived n) vn fs, ?_, ?_, rfl⟩
          · rw [fromReflect_enum hdecl]
            have : (Value.enumS vn (svOfList (((visDefs fds).map (·.name)).zip vs)).1
              (svOfList (((visDefs fds).map (·.name)).zip vs)).2).toObj.variantName = some vn := by
              rw [Value.toObj]; rfl
            simp only [this, Option.bind_some, List.find?_cons, VariantDef.name, decide_true, h2]; rfl
          · rw [toValue_enumS, h3, svOfList_eq, hk]
            have := congrArg (List.map (·.1)) h3
            rw [hk, List.map_map] at this
            exact congrArg (fun x => Value.enumS vn x _) this
        | tuple vn fds =>
          simp only [defaultVariant] at h
          obtain ⟨vs, hx, rfl⟩ := opt h; clear h
          have h := posF (by simp [Ty.needs, hdecl]) hx
          obtain ⟨fs, h1, h2⟩ := conv_pos_all (c := c) (src := (Value.enumT vn vs).toObj)
            (SkipGap.last fun hg => hC _ .refl ⟨_, _, rfl, .inr ⟨_, _, _, hdecl, hg⟩⟩) h
            (fun i => by simp only [Value.toObj, Obj.fieldAt, toObj_visAt])
          refine ⟨.enumT _ _ (wf h), .enumT (.derived n) vn fs, ?_, by rw [toValue_enumT, h2], rfl⟩
          rw [fromReflect_enum hdecl]
          have : (Value.enumT vn vs).toObj.variantName = some vn := by rw [Value.toObj]; rfl
          simp only [this, Option.bind_some, List.find?_cons, VariantDef.name, decide_true, h1]; rfl
        | unit vn =>
          simp only [defaultVariant, Option.some.injEq] at h; subst h
          refine ⟨.enumU _, .enumU (.derived n) vn, ?_, by simp [Obj.toValue], rfl⟩
          rw [fromReflect_enum hdecl, Value.toObj]
          simp [Obj.variantName, List.find?_cons, VariantDef.name]

end Mirror
