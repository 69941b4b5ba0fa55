import Verif.Lemmas.TypePath
import Verif.Spec.Default

set_option linter.unusedSimpArgs false

/-!
# Lemmas about default values
-/

namespace Mirror

variable {E : Env}

/-! ## Loops -/

theorem defaultPos_some {f : Ty → Option (Option Value)} {ts : List Ty} {vs : List Value} :
    defaultPos f ts = some (some vs) ↔ List.Forall₂ (fun t v => f t = some (some v)) ts vs := by
  induction ts generalizing vs with
  | nil => cases vs <;> simp [defaultPos]
  | cons t ts ih =>
    rw [defaultPos]
    rcases h : f t with _ | _ | v
    · simp [List.forall₂_cons_left_iff, h]
    · simp [List.forall₂_cons_left_iff, h]
    · simp only [Option.map_eq_some_iff, List.forall₂_cons_left_iff, h, Option.some.injEq]
      constructor
      · rintro ⟨o, ho, hv⟩
        obtain ⟨l, rfl, rfl⟩ := hv
        exact ⟨v, l, rfl, ih.mp ho, rfl⟩
      · rintro ⟨b, us, rfl, hf, rfl⟩
        exact ⟨some us, ih.mpr hf, us, rfl, rfl⟩

theorem defaultPos_none {f : Ty → Option (Option Value)} {ts : List Ty} :
    defaultPos f ts = some none ↔
      ∃ pre t post, ts = pre ++ t :: post ∧ (∀ u ∈ pre, ∃ v, f u = some (some v)) ∧ f t = some none := by
  induction ts with
  | nil => simp [defaultPos]
  | cons t ts ih =>
    rw [defaultPos]
    rcases h : f t with _ | _ | v
    · simp only [reduceCtorEq, false_iff]
      rintro ⟨pre, u, post, he, hp, hu⟩
      cases pre with
      | nil => simp at he; rw [← he.1, h] at hu; cases hu
      | cons a pre => simp at he; obtain ⟨v, hv⟩ := hp a (by simp); rw [← he.1, h] at hv; cases hv
    · simp only [true_iff]
      exact ⟨[], t, ts, rfl, by simp, h⟩
    · simp only [Option.map_eq_some_iff, Option.map_eq_none_iff, exists_eq_right]
      rw [ih]
      constructor
      · rintro ⟨pre, u, post, rfl, hp, hu⟩
        refine ⟨t :: pre, u, post, rfl, ?_, hu⟩
        intro w hw
        rcases List.mem_cons.mp hw with rfl | hw
        · exact ⟨v, h⟩
        · exact hp w hw
      · rintro ⟨pre, u, post, he, hp, hu⟩
        cases pre with
        | nil => simp at he; rw [← he.1, h] at hu; cases hu
        | cons a pre =>
          simp at he
          exact ⟨pre, u, post, he.2, fun w hw => hp w (by simp [hw]), hu⟩

theorem defaultPos_mono {f f' : Ty → Option (Option Value)} {ts : List Ty} {r}
    (h : defaultPos f ts = some r) (hf : ∀ t ∈ ts, ∀ r, f t = some r → f' t = some r) :
    defaultPos f' ts = some r := by
  induction ts generalizing r with
  | nil => exact h
  | cons t ts ih =>
    rw [defaultPos] at h ⊢
    rcases ht : f t with _ | _ | v
    · rw [ht] at h; cases h
    · rw [ht] at h; rw [hf t (by simp) _ ht]; exact h
    · rw [ht] at h; rw [hf t (by simp) _ ht]
      simp only [Option.map_eq_some_iff] at h ⊢
      obtain ⟨a, ha, rfl⟩ := h
      exact ⟨a, ih ha fun u hu => hf u (by simp [hu]), rfl⟩

theorem defaultNamed_eq {f : Ty → Option (Option Value)} {α} (l : List α) (nm : α → String) (ty : α → Ty) :
    defaultNamed f (l.map fun a => (nm a, some (ty a))) =
      (defaultPos f (l.map ty)).map (Option.map fun vs => (l.map nm).zip vs) := by
  induction l with
  | nil => rfl
  | cons a l ih =>
    simp only [List.map_cons, defaultNamed, defaultPos]
    rcases f (ty a) with _ | _ | v
    · rfl
    · rfl
    · simp only [ih]
      rcases defaultPos f (l.map ty) with _ | _ | vs <;> rfl

theorem hasNamed_eq {f : Ty → Option Bool} {α} (l : List α) (nm : α → String) (ty : α → Ty) :
    hasNamed f (l.map fun a => (nm a, some (ty a))) = hasPos f (l.map ty) := by
  induction l with
  | nil => rfl
  | cons a l ih =>
    simp only [List.map_cons, hasNamed, hasPos, ih]

theorem hasPos_true {f : Ty → Option Bool} {ts : List Ty} :
    hasPos f ts = some true ↔ ∀ t ∈ ts, f t = some true := by
  induction ts with
  | nil => simp [hasPos]
  | cons t ts ih =>
    rw [hasPos]
    rcases h : f t with _ | _ | _
    · simp [h]
    · simp [h]
    · simp [h, ih]

theorem hasPos_false {f : Ty → Option Bool} {ts : List Ty} :
    hasPos f ts = some false ↔
      ∃ pre t post, ts = pre ++ t :: post ∧ (∀ u ∈ pre, f u = some true) ∧ f t = some false := by
  induction ts with
  | nil => simp [hasPos]
  | cons t ts ih =>
    rw [hasPos]
    rcases h : f t with _ | _ | _
    · simp only [reduceCtorEq, false_iff]
      rintro ⟨pre, u, post, he, hp, hu⟩
      cases pre with
      | nil => simp at he; rw [← he.1, h] at hu; cases hu
      | cons a pre => simp at he; have hv := hp a (by simp); rw [← he.1, h] at hv; cases hv
    · simp only [true_iff]
      exact ⟨[], t, ts, rfl, by simp, h⟩
    · rw [ih]
      constructor
      · rintro ⟨pre, u, post, rfl, hp, hu⟩
        refine ⟨t :: pre, u, post, rfl, ?_, hu⟩
        intro w hw
        rcases List.mem_cons.mp hw with rfl | hw
        · exact h
        · exact hp w hw
      · rintro ⟨pre, u, post, he, hp, hu⟩
        cases pre with
        | nil => simp at he; rw [← he.1, h] at hu; cases hu
        | cons a pre =>
          simp at he
          exact ⟨pre, u, post, he.2, fun w hw => hp w (by simp [hw]), hu⟩

theorem hasPos_mono {f f' : Ty → Option Bool} {ts : List Ty} {r}
    (h : hasPos f ts = some r) (hf : ∀ t ∈ ts, ∀ r, f t = some r → f' t = some r) :
    hasPos f' ts = some r := by
  induction ts generalizing r with
  | nil => exact h
  | cons t ts ih =>
    rw [hasPos] at h ⊢
    rcases ht : f t with _ | _ | _
    · rw [ht] at h; cases h
    · rw [ht] at h; rw [hf t (by simp) _ ht]; exact h
    · rw [ht] at h; rw [hf t (by simp) _ ht]
      exact ih h fun u hu => hf u (by simp [hu])

/-! ## Shape of the recursion -/

theorem replicate_unbox (n : Nat) (t : Ty) :
    List.replicate n t.unbox = (List.replicate n t).map Ty.unbox := by simp

/-- What the recursion looks like for a described type. -/
theorem default_shape {g : TypeGraph} (hG : GraphOK E g) {id node} (hn : g.node id = some node) :
    (id.needs E false = none ∧ (∀ fuel, defaultValue g (fuel + 1) id = some none)) ∨
    ∃ us, id.needs E false = some us ∧ (∀ u ∈ us, ∃ m, g.node u.unbox = some m) ∧
      ∃ W : List Value → Value, ∀ fuel, defaultValue g (fuel + 1) id =
        (defaultPos (defaultValue g fuel) (us.map Ty.unbox)).map (Option.map W) := by
  obtain ⟨hd, hc⟩ := hG id node hn
  have hst : ∀ {fds : List FieldDef} {names fields},
      namedTypes names fields = (fds.filter fun fd => !fd.skip).map (fun fd => (fd.name, some fd.ty.unbox)) →
      ∀ fd ∈ visDefs fds, fd.ty.unbox ∈ fields.map (·.2) := by
    intro fds names fields h fd hfd
    have : (fd.name, some fd.ty.unbox) ∈ namedTypes names fields := by
      rw [h]; exact List.mem_map.mpr ⟨fd, hfd, rfl⟩
    simp only [namedTypes, List.mem_map, Prod.mk.injEq] at this
    obtain ⟨m, _, rfl, hg⟩ := this
    exact namedType_mem hg
  cases hd with
  | scalar k => exact .inr ⟨[], rfl, by simp, fun _ => .scalar k.default, fun fuel => by
      simp [defaultValue, hn, defaultPos]⟩
  | nonzero k => exact .inl ⟨rfl, fun fuel => by simp [defaultValue, hn]⟩
  | value => exact .inl ⟨rfl, fun fuel => by simp [defaultValue, hn]⟩
  | structValue => exact .inl ⟨rfl, fun fuel => by simp [defaultValue, hn]⟩
  | tupleStructValue => exact .inl ⟨rfl, fun fuel => by simp [defaultValue, hn]⟩
  | tupleValue => exact .inl ⟨rfl, fun fuel => by simp [defaultValue, hn]⟩
  | enumValue => exact .inl ⟨rfl, fun fuel => by simp [defaultValue, hn]⟩
  | vec t => exact .inr ⟨[], rfl, by simp, fun _ => .list [], fun fuel => by
      simp [defaultValue, hn, defaultPos]⟩
  | map k v => exact .inr ⟨[], rfl, by simp, fun _ => .map [], fun fuel => by
      simp [defaultValue, hn, defaultPos]⟩
  | array t n =>
    refine .inr ⟨List.replicate n t, rfl, ?_, .list, fun fuel => by simp [defaultValue, hn]⟩
    intro u hu
    rw [List.eq_of_mem_replicate hu]
    exact hc _ (by simp [TypeNode.ids])
  | tuple ts =>
    refine .inr ⟨ts, rfl, ?_, .tuple, fun fuel => by simp [defaultValue, hn]⟩
    intro u hu
    exact hc _ (List.mem_map.mpr ⟨u, hu, rfl⟩)
  | struct n fds c names fields hdecl hf hlen hso =>
    refine .inr ⟨(visDefs fds).map (·.ty), by simp [Ty.needs, hdecl, visDefs], ?_,
      fun vs => .struct (svOfList (((visDefs fds).map (·.name)).zip vs)).1
        (svOfList (((visDefs fds).map (·.name)).zip vs)).2, fun fuel => ?_⟩
    · intro u hu
      obtain ⟨fd, hfd, rfl⟩ := List.mem_map.mp hu
      exact hc _ (hst hf fd hfd)
    · simp only [defaultValue, hn, hf]
      rw [show (fds.filter fun fd => !fd.skip) = visDefs fds from rfl, defaultNamed_eq, List.map_map]
      simp only [Option.map_map, Function.comp_def]
  | tupleStruct n fds c hdecl =>
    refine .inr ⟨(visDefs fds).map (·.ty), by simp [Ty.needs, hdecl, visDefs], ?_, .tupleStruct,
      fun fuel => by simp [defaultValue, hn, visDefs, Function.comp_def]⟩
    intro u hu
    obtain ⟨fd, hfd, rfl⟩ := List.mem_map.mp hu
    exact hc _ (List.mem_map.mpr ⟨fd, hfd, rfl⟩)
  | enum n vds c vs hdecl hl hvs =>
    cases vds with
    | nil =>
      cases vs with
      | cons => simp at hl
      | nil => exact .inl ⟨by simp [Ty.needs, hdecl], fun fuel => by simp [defaultValue, hn]⟩
    | cons vd vds =>
    cases vs with
    | nil => simp at hl
    | cons v vs =>
      have hv := hvs 0 vd v rfl rfl
      have hc' : ∀ j ∈ v.ids, ∃ m, g.node j = some m := fun j hj =>
        hc j (List.mem_flatMap.mpr ⟨v, by simp, hj⟩)
      cases hv with
      | struct vn fds names fields hf hlen hso =>
        refine .inr ⟨(visDefs fds).map (·.ty), by simp [Ty.needs, hdecl, visDefs], ?_,
          fun vs => .enumS vn (svOfList (((visDefs fds).map (·.name)).zip vs)).1
            (svOfList (((visDefs fds).map (·.name)).zip vs)).2, fun fuel => ?_⟩
        · intro u hu
          obtain ⟨fd, hfd, rfl⟩ := List.mem_map.mp hu
          exact hc' _ (hst hf fd hfd)
        · simp only [defaultValue, hn, defaultVariant, hf]
          rw [show (fds.filter fun fd => !fd.skip) = visDefs fds from rfl, defaultNamed_eq, List.map_map]
          simp only [Option.map_map, Function.comp_def]
      | tuple vn fds =>
        refine .inr ⟨(visDefs fds).map (·.ty), by simp [Ty.needs, hdecl, visDefs], ?_, .enumT vn,
          fun fuel => by simp [defaultValue, hn, defaultVariant, visDefs, Function.comp_def]⟩
        intro u hu
        obtain ⟨fd, hfd, rfl⟩ := List.mem_map.mp hu
        exact hc' _ (List.mem_map.mpr ⟨fd, hfd, rfl⟩)
      | unit vn =>
        exact .inr ⟨[], by simp [Ty.needs, hdecl], by simp, fun _ => .enumU vn, fun fuel => by
          simp [defaultValue, hn, defaultVariant, defaultPos]⟩

theorem has_shape {g : TypeGraph} (hG : GraphOK E g) {id node} (hn : g.node id = some node) :
    (id.needs E true = none ∧ (∀ fuel, hasDefault g (fuel + 1) id = some false)) ∨
    ∃ us, id.needs E true = some us ∧ (∀ u ∈ us, ∃ m, g.node u.unbox = some m) ∧
      ∀ fuel, hasDefault g (fuel + 1) id = hasPos (hasDefault g fuel) (us.map Ty.unbox) := by
  obtain ⟨hd, hc⟩ := hG id node hn
  have hst : ∀ {fds : List FieldDef} {names fields},
      namedTypes names fields = (fds.filter fun fd => !fd.skip).map (fun fd => (fd.name, some fd.ty.unbox)) →
      ∀ fd ∈ visDefs fds, fd.ty.unbox ∈ fields.map (·.2) := by
    intro fds names fields h fd hfd
    have : (fd.name, some fd.ty.unbox) ∈ namedTypes names fields := by
      rw [h]; exact List.mem_map.mpr ⟨fd, hfd, rfl⟩
    simp only [namedTypes, List.mem_map, Prod.mk.injEq] at this
    obtain ⟨m, _, rfl, hg⟩ := this
    exact namedType_mem hg
  cases hd with
  | scalar k => exact .inr ⟨[], rfl, by simp, fun fuel => by simp [hasDefault, hn, hasPos]⟩
  | nonzero k => exact .inl ⟨rfl, fun fuel => by simp [hasDefault, hn]⟩
  | value => exact .inl ⟨rfl, fun fuel => by simp [hasDefault, hn]⟩
  | structValue => exact .inl ⟨rfl, fun fuel => by simp [hasDefault, hn]⟩
  | tupleStructValue => exact .inl ⟨rfl, fun fuel => by simp [hasDefault, hn]⟩
  | tupleValue => exact .inl ⟨rfl, fun fuel => by simp [hasDefault, hn]⟩
  | enumValue => exact .inl ⟨rfl, fun fuel => by simp [hasDefault, hn]⟩
  | vec t => exact .inr ⟨[], rfl, by simp, fun fuel => by simp [hasDefault, hn, hasPos]⟩
  | map k v => exact .inr ⟨[], rfl, by simp, fun fuel => by simp [hasDefault, hn, hasPos]⟩
  | array t n =>
    refine .inr ⟨[t], rfl, ?_, fun fuel => ?_⟩
    · intro u hu
      simp at hu; subst hu
      exact hc _ (by simp [TypeNode.ids])
    · simp only [hasDefault, hn, List.map_cons, List.map_nil, hasPos]
      rcases hasDefault g fuel t.unbox with _ | _ | _ <;> rfl
  | tuple ts =>
    refine .inr ⟨ts, rfl, ?_, fun fuel => by simp [hasDefault, hn]⟩
    intro u hu
    exact hc _ (List.mem_map.mpr ⟨u, hu, rfl⟩)
  | struct n fds c names fields hdecl hf hlen hso =>
    refine .inr ⟨(visDefs fds).map (·.ty), by simp [Ty.needs, hdecl, visDefs], ?_, fun fuel => ?_⟩
    · intro u hu
      obtain ⟨fd, hfd, rfl⟩ := List.mem_map.mp hu
      exact hc _ (hst hf fd hfd)
    · simp only [hasDefault, hn, hf]
      rw [show (fds.filter fun fd => !fd.skip) = visDefs fds from rfl, hasNamed_eq, List.map_map]
      rfl
  | tupleStruct n fds c hdecl =>
    refine .inr ⟨(visDefs fds).map (·.ty), by simp [Ty.needs, hdecl, visDefs], ?_,
      fun fuel => by simp [hasDefault, hn, visDefs, Function.comp_def]⟩
    intro u hu
    obtain ⟨fd, hfd, rfl⟩ := List.mem_map.mp hu
    exact hc _ (List.mem_map.mpr ⟨fd, hfd, rfl⟩)
  | enum n vds c vs hdecl hl hvs =>
    cases vds with
    | nil =>
      cases vs with
      | cons => simp at hl
      | nil => exact .inl ⟨by simp [Ty.needs, hdecl], fun fuel => by simp [hasDefault, hn]⟩
    | cons vd vds =>
    cases vs with
    | nil => simp at hl
    | cons v vs =>
      have hv := hvs 0 vd v rfl rfl
      have hc' : ∀ j ∈ v.ids, ∃ m, g.node j = some m := fun j hj =>
        hc j (List.mem_flatMap.mpr ⟨v, by simp, hj⟩)
      cases hv with
      | struct vn fds names fields hf hlen hso =>
        refine .inr ⟨(visDefs fds).map (·.ty), by simp [Ty.needs, hdecl, visDefs], ?_, fun fuel => ?_⟩
        · intro u hu
          obtain ⟨fd, hfd, rfl⟩ := List.mem_map.mp hu
          exact hc' _ (hst hf fd hfd)
        · simp only [hasDefault, hn, hasVariant, hf]
          rw [show (fds.filter fun fd => !fd.skip) = visDefs fds from rfl, hasNamed_eq, List.map_map]
          rfl
      | tuple vn fds =>
        refine .inr ⟨(visDefs fds).map (·.ty), by simp [Ty.needs, hdecl, visDefs], ?_,
          fun fuel => by simp [hasDefault, hn, hasVariant, visDefs, Function.comp_def]⟩
        intro u hu
        obtain ⟨fd, hfd, rfl⟩ := List.mem_map.mp hu
        exact hc' _ (List.mem_map.mpr ⟨fd, hfd, rfl⟩)
      | unit vn =>
        exact .inr ⟨[], by simp [Ty.needs, hdecl], by simp, fun fuel => by
          simp [hasDefault, hn, hasVariant, hasPos]⟩

/-! ## Both functions, as computations of a boolean -/

/-- A computation that follows `needs`. -/
structure Follows (E : Env) (g : TypeGraph) (all : Bool) (B : Nat → Ty → Option Bool) : Prop where
  zero : ∀ id, B 0 id = none
  shape : ∀ id node, g.node id = some node →
    (id.needs E all = none ∧ (∀ fuel, B (fuel + 1) id = some false)) ∨
    ∃ us, id.needs E all = some us ∧ (∀ u ∈ us, ∃ m, g.node u.unbox = some m) ∧
      ∀ fuel, B (fuel + 1) id = hasPos (B fuel) (us.map Ty.unbox)

theorem has_follows {g : TypeGraph} (hG : GraphOK E g) : Follows E g true (hasDefault g) :=
  ⟨fun _ => rfl, fun _ _ hn => has_shape hG hn⟩

theorem defaultPos_isSome {f : Ty → Option (Option Value)} (ts : List Ty) :
    (defaultPos f ts).map (·.isSome) = hasPos (fun t => (f t).map (·.isSome)) ts := by
  induction ts with
  | nil => rfl
  | cons t ts ih =>
    rw [defaultPos, hasPos]
    rcases f t with _ | _ | v
    · rfl
    · rfl
    · simp only [Option.map_some, Option.isSome_some, ← ih]
      rcases defaultPos f ts with _ | _ | vs <;> rfl

theorem default_follows {g : TypeGraph} (hG : GraphOK E g) :
    Follows E g false (fun fuel id => (defaultValue g fuel id).map (·.isSome)) := by
  refine ⟨fun _ => rfl, fun id node hn => ?_⟩
  rcases default_shape hG hn with ⟨h, h'⟩ | ⟨us, h, h', W, h''⟩
  · exact .inl ⟨h, fun fuel => by simp [h' fuel]⟩
  · refine .inr ⟨us, h, h', fun fuel => ?_⟩
    simp only [h'' fuel]
    rw [← defaultPos_isSome]
    rcases defaultPos (defaultValue g fuel) (us.map Ty.unbox) with _ | _ | vs <;> rfl

variable {g : TypeGraph} {all : Bool} {B : Nat → Ty → Option Bool}

theorem Follows.succ (hB : Follows E g all B) : ∀ fuel id node r, g.node id = some node →
    B fuel id = some r → B (fuel + 1) id = some r
  | 0, id, _, r, _, h => by rw [hB.zero] at h; cases h
  | fuel + 1, id, node, r, hn, h => by
    rcases hB.shape id node hn with ⟨_, h'⟩ | ⟨us, _, hm, h'⟩
    · rw [h'] at h ⊢; exact h
    · rw [h'] at h ⊢
      refine hasPos_mono h ?_
      intro t ht r hr
      obtain ⟨u, hu, rfl⟩ := List.mem_map.mp ht
      obtain ⟨m, hm⟩ := hm u hu
      exact Follows.succ hB fuel _ m r hm hr

theorem Follows.mono (hB : Follows E g all B) {fuel fuel' : Nat} (hle : fuel ≤ fuel') {id node r}
    (hn : g.node id = some node) (h : B fuel id = some r) : B fuel' id = some r := by
  induction hle with
  | refl => exact h
  | step _ ih => exact hB.succ _ _ _ _ hn ih

theorem Follows.det (hB : Follows E g all B) {fuel fuel' : Nat} {id node r r'}
    (hn : g.node id = some node) (h : B fuel id = some r) (h' : B fuel' id = some r') : r = r' := by
  have a := hB.mono (Nat.le_max_left fuel fuel') hn h
  have b := hB.mono (Nat.le_max_right fuel fuel') hn h'
  rw [a] at b; exact Option.some.inj b

/-- Enough fuel for a list. -/
theorem Follows.all_true (hB : Follows E g all B) : ∀ (ts : List Ty),
    (∀ t ∈ ts, ∃ m, g.node t = some m) → (∀ t ∈ ts, ∃ fuel, B fuel t = some true) →
    ∃ fuel, ∀ t ∈ ts, B fuel t = some true
  | [], _, _ => ⟨0, by simp⟩
  | t :: ts, hm, h => by
    obtain ⟨f1, h1⟩ := h t (by simp)
    obtain ⟨f2, h2⟩ := Follows.all_true hB ts (fun u hu => hm u (by simp [hu]))
      (fun u hu => h u (by simp [hu]))
    refine ⟨max f1 f2, fun u hu => ?_⟩
    obtain ⟨m, hm'⟩ := hm u hu
    rcases List.mem_cons.mp hu with rfl | hu
    · exact hB.mono (Nat.le_max_left _ _) hm' h1
    · exact hB.mono (Nat.le_max_right _ _) hm' (h2 u hu)

theorem needs_box (t : Ty) : (Ty.box t).needs E all = some [t] := rfl

theorem defaultable_unbox {t : Ty} : Defaultable E all t.unbox ↔ Defaultable E all t := by
  induction t using Ty.unbox.induct with
  | case1 t ih =>
    rw [Ty.unbox, ih]
    constructor
    · exact fun h => .mk _ [t] rfl (by simpa using h)
    · rintro ⟨_, us, hu, h⟩
      rw [needs_box] at hu; cases hu
      exact h t (by simp)
  | case2 t h => rw [Ty.unbox]; exact h

theorem Follows.true_iff (hB : Follows E g all B) {t : Ty} (hn : ∃ m, g.node t.unbox = some m) :
    (∃ fuel, B fuel t.unbox = some true) ↔ Defaultable E all t := by
  constructor
  · rintro ⟨fuel, h⟩
    rw [← defaultable_unbox]
    obtain ⟨m, hn⟩ := hn
    generalize t.unbox = id at h hn
    clear t
    induction fuel generalizing id m with
    | zero => rw [hB.zero] at h; cases h
    | succ fuel ih =>
      rcases hB.shape id m hn with ⟨_, h'⟩ | ⟨us, hus, hm, h'⟩
      · rw [h'] at h; cases h
      · rw [h', hasPos_true] at h
        refine .mk _ us hus fun u hu => ?_
        obtain ⟨m', hm'⟩ := hm u hu
        exact defaultable_unbox.mp (ih _ _ (h _ (List.mem_map.mpr ⟨u, hu, rfl⟩)) hm')
  · intro h
    induction h with
    | mk t us hus _ ih =>
      by_cases hb : ∃ w, t = .box w
      · obtain ⟨w, rfl⟩ := hb
        rw [needs_box] at hus; cases hus
        exact ih w (by simp) hn
      · have hub : t.unbox = t := by rw [Ty.unbox]; exact fun w hw => hb ⟨w, hw⟩
        rw [hub] at hn ⊢
        obtain ⟨m, hn⟩ := hn
        rcases hB.shape t m hn with ⟨h', _⟩ | ⟨us', hus', hm, h'⟩
        · rw [hus] at h'; cases h'
        · rw [hus] at hus'; cases hus'
          obtain ⟨fuel, hf⟩ := hB.all_true (us.map Ty.unbox)
            (fun w hw => by obtain ⟨u, hu, rfl⟩ := List.mem_map.mp hw; exact hm u hu)
            (fun w hw => by obtain ⟨u, hu, rfl⟩ := List.mem_map.mp hw; exact ih u hu (hm u hu))
          exact ⟨fuel + 1, by rw [h', hasPos_true]; exact hf⟩

theorem asks_box {t u : Ty} : Asks E all u (.box t) ↔ u = t := by
  constructor
  · rintro ⟨pre, post, h, _⟩
    rw [needs_box] at h
    cases pre with
    | nil => simp at h; exact h.1.symm
    | cons a pre => simp at h
  · rintro rfl; exact ⟨[], [], rfl, by simp⟩

theorem asks_acc_unbox {t : Ty} : Acc (Asks E all) t.unbox ↔ Acc (Asks E all) t := by
  induction t using Ty.unbox.induct with
  | case1 t ih =>
    rw [Ty.unbox, ih]
    constructor
    · intro h; exact ⟨_, fun u hu => by rw [asks_box.mp hu]; exact h⟩
    · intro h; exact h.inv (asks_box.mpr rfl)
  | case2 t h => rw [Ty.unbox]; exact h

/-- A loop that gets stuck: everything before succeeded. -/
theorem hasPos_stuck {f : Ty → Option Bool} {ts : List Ty} (h : hasPos f ts = none) :
    ∃ pre t post, ts = pre ++ t :: post ∧ (∀ u ∈ pre, f u = some true) ∧ f t = none := by
  induction ts with
  | nil => simp [hasPos] at h
  | cons t ts ih =>
    rw [hasPos] at h
    rcases ht : f t with _ | _ | _
    · exact ⟨[], t, ts, rfl, by simp, ht⟩
    · rw [ht] at h; cases h
    · rw [ht] at h
      obtain ⟨pre, u, post, rfl, hp, hu⟩ := ih h
      refine ⟨t :: pre, u, post, rfl, ?_, hu⟩
      intro w hw
      rcases List.mem_cons.mp hw with rfl | hw
      · exact ht
      · exact hp w hw

/-- Enough fuel to answer: a step at a time. -/
theorem Follows.pos_answers (hB : Follows E g all B) : ∀ (us pre : List Ty),
    (∀ u ∈ us, ∃ m, g.node u.unbox = some m) → (∀ w ∈ pre, Defaultable E all w) →
    (∀ a b, us = a ++ b → ∀ u c, b = u :: c → (∀ w ∈ a, Defaultable E all w) →
      ∃ fuel r, B fuel u.unbox = some r) →
    ∃ fuel r, hasPos (B fuel) (us.map Ty.unbox) = some r
  | [], _, _, _, _ => ⟨0, true, rfl⟩
  | u :: us, pre, hm, hp, h => by
    obtain ⟨m, hmu⟩ := hm u (by simp)
    obtain ⟨f1, r1, h1⟩ := h [] (u :: us) rfl u us rfl (by simp)
    cases r1 with
    | false => exact ⟨f1, false, by simp [hasPos, h1]⟩
    | true =>
      have hdu : Defaultable E all u := (hB.true_iff ⟨m, hmu⟩).mp ⟨f1, h1⟩
      obtain ⟨f2, r2, h2⟩ := Follows.pos_answers hB us [] (fun w hw => hm w (by simp [hw])) (by simp)
        (fun a b hab w c hb ha => h (u :: a) b (by simp [hab]) w c hb (by
          intro x hx
          rcases List.mem_cons.mp hx with rfl | hx
          · exact hdu
          · exact ha x hx))
      refine ⟨max f1 f2, r2, ?_⟩
      rw [List.map_cons, hasPos, hB.mono (Nat.le_max_left _ _) hmu h1]
      refine hasPos_mono h2 ?_
      intro t ht r hr
      obtain ⟨w, hw, rfl⟩ := List.mem_map.mp ht
      obtain ⟨m', hm'⟩ := hm w (by simp [hw])
      exact hB.mono (Nat.le_max_right _ _) hm' hr

theorem Follows.answers_iff (hB : Follows E g all B) {t : Ty} (hn : ∃ m, g.node t.unbox = some m) :
    (∃ fuel r, B fuel t.unbox = some r) ↔ Acc (Asks E all) t := by
  constructor
  · rintro ⟨fuel, r, h⟩
    rw [← asks_acc_unbox]
    obtain ⟨m, hn⟩ := hn
    generalize t.unbox = id at h hn
    clear t
    induction fuel generalizing id m r with
    | zero => rw [hB.zero] at h; cases h
    | succ fuel ih =>
      refine ⟨_, fun u hu => ?_⟩
      obtain ⟨pre, post, hus, hpre⟩ := hu
      rcases hB.shape id m hn with ⟨h', _⟩ | ⟨us, hus', hm, h'⟩
      · rw [hus] at h'; cases h'
      · rw [hus] at hus'; cases hus'
        obtain ⟨mu, hmu⟩ := hm u (by simp)
        rw [h'] at h
        rw [← asks_acc_unbox]
        cases hbu : B fuel u.unbox with
        | some r' => exact ih _ _ _ hbu hmu
        | none =>
          -- the loop must have stopped at a defaultable type
          exfalso
          cases r with
          | true =>
            rw [hasPos_true] at h
            rw [h u.unbox (List.mem_map.mpr ⟨u, by simp, rfl⟩)] at hbu; cases hbu
          | false =>
            rw [hasPos_false] at h
            obtain ⟨pre', w, post', he, hp', hw⟩ := h
            -- position of `w` relative to `u`
            simp only [List.map_append, List.map_cons] at he
            have hlt : pre'.length < pre.length ∨ pre.length ≤ pre'.length := by omega
            rcases hlt with hlt | hge
            · have hw' : w ∈ pre.map Ty.unbox := by
                have h1 : (pre.map Ty.unbox ++ u.unbox :: post.map Ty.unbox)[pre'.length]? = some w := by
                  rw [he]; simp
                rw [List.getElem?_append_left (by simpa using hlt)] at h1
                exact List.mem_of_getElem? h1
              obtain ⟨x, hx, rfl⟩ := List.mem_map.mp hw'
              obtain ⟨mx, hmx⟩ := hm x (by simp [hx])
              obtain ⟨f, hf⟩ := (hB.true_iff ⟨mx, hmx⟩).mpr (hpre x hx)
              exact absurd (hB.det hmx hf hw) (by simp)
            · rcases Nat.lt_or_eq_of_le hge with hlt | heq
              · have h1 : (pre' ++ w :: post')[pre.length]? = some u.unbox := by
                  rw [← he]
                  simp
                rw [List.getElem?_append_left hlt] at h1
                rw [hp' _ (List.mem_of_getElem? h1)] at hbu; cases hbu
              · have h1 : (pre' ++ w :: post')[pre.length]? = some u.unbox := by
                  rw [← he]
                  simp
                rw [heq] at h1
                simp at h1; subst h1
                rw [hw] at hbu; cases hbu
  · intro h
    induction h with
    | intro t hacc ih =>
      by_cases hb : ∃ w, t = .box w
      · obtain ⟨w, rfl⟩ := hb
        exact ih w (asks_box.mpr rfl) hn
      · have hub : t.unbox = t := by rw [Ty.unbox]; exact fun w hw => hb ⟨w, hw⟩
        rw [hub] at hn ⊢
        obtain ⟨m, hn⟩ := hn
        rcases hB.shape t m hn with ⟨_, h'⟩ | ⟨us, hus, hm, h'⟩
        · exact ⟨1, false, h' 0⟩
        · obtain ⟨fuel, r, hr⟩ := hB.pos_answers us [] hm (by simp) (by
            intro a b hab u c hb ha
            subst hb
            exact ih u ⟨a, c, by rw [hus, hab], ha⟩ (hm u (by simp [hab])))
          exact ⟨fuel + 1, r, by rw [h', hr]⟩

end Mirror
