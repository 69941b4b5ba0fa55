import Verif.Spec.Unseen
import Verif.Spec.Path
import Verif.Lemmas.UnseenMore
import Verif.Lemmas.ToValueInj
import Verif.Props.RoundTrip
import Verif.Props.ReflectEq

/-!
# C73: skipped fields never show
-/

set_option linter.unusedSimpArgs false

namespace Mirror

theorem map_eq_of_idx {α β γ : Type} {f : α → γ} {g : β → γ} {l : List α} {m : List β}
    (hn : l.length = m.length) (h : ∀ (i : Nat) a b, l[i]? = some a → m[i]? = some b → f a = g b) :
    l.map f = m.map g := by
  apply List.ext_getElem?
  intro i
  simp only [List.getElem?_map]
  cases ha : l[i]? with
  | none =>
    have : m[i]? = none := by rw [List.getElem?_eq_none_iff] at ha ⊢; omega
    rw [this]; rfl
  | some a =>
    cases hb : m[i]? with
    | none =>
      have hb := List.getElem?_eq_none_iff.mp hb
      have := (List.getElem?_eq_some_iff.mp ha).1
      omega
    | some b => simp only [Option.map_some, h i a b ha hb]

theorem idx_of_map_eq {α β γ : Type} {f : α → γ} {g : β → γ} {l : List α} {m : List β}
    (h : l.map f = m.map g) : l.length = m.length ∧
      ∀ (i : Nat) a b, l[i]? = some a → m[i]? = some b → f a = g b := by
  refine ⟨by simpa using congrArg List.length h, fun i a b ha hb => ?_⟩
  have := congrArg (·[i]?) h
  simpa [List.getElem?_map, ha, hb] using this

theorem Obj.SeenAs.reset {x y : Obj} (h : x.SeenAs y) : x.reset = y.reset := by
  induction h with
  | hidden a b => simp [Obj.reset]
  | scalar | nonzero | enumU => rfl
  | struct tag fs gs hn _ ih | enumS tag v fs gs hn _ ih =>
    have : fs.map (fun p => (p.1, p.2.reset)) = gs.map fun p => (p.1, p.2.reset) :=
      map_eq_of_idx (idx_of_map_eq hn).1 fun i p q hp hq => by
        rw [(idx_of_map_eq hn).2 i p q hp hq, ih i p q hp hq]
    simp only [Obj.reset, this]
  | tupleStruct tag fs gs hn _ ih | tuple tag fs gs hn _ ih | enumT tag v fs gs hn _ ih | vec tag fs gs hn _ ih
    | array tag fs gs hn _ ih =>
    have : fs.map (fun p => p.reset) = gs.map fun p => p.reset := map_eq_of_idx hn ih
    simp only [Obj.reset, this]
  | map kt vt fs gs hn _ _ ih1 ih2 =>
    have : fs.map (fun p => (p.1.reset, p.2.reset)) = gs.map fun p => (p.1.reset, p.2.reset) :=
      map_eq_of_idx hn fun i p q hp hq => by rw [ih1 i p q hp hq, ih2 i p q hp hq]
    simp only [Obj.reset, this]

theorem Obj.seenAs_of_reset {x : Obj} : ∀ {y : Obj}, x.reset = y.reset → x.SeenAs y := by
  induction x using Obj.ind with
  | h x ih =>
    intro y h
    have named : ∀ {fs gs : List (String × Obj)}, (∀ p ∈ fs, sizeOf p.2 < sizeOf x) →
        fs.map (fun p => (p.1, p.2.reset)) = gs.map (fun p => (p.1, p.2.reset)) →
        fs.map (·.1) = gs.map (·.1) ∧ ∀ (i : Nat) p q, fs[i]? = some p → gs[i]? = some q → p.2.SeenAs q.2 := by
      intro fs gs hs he
      obtain ⟨hn, hi⟩ := idx_of_map_eq he
      refine ⟨map_eq_of_idx hn fun i p q hp hq => (Prod.mk.inj (hi i p q hp hq)).1, fun i p q hp hq =>
        ih p.2 (hs p (List.mem_of_getElem? hp)) (Prod.mk.inj (hi i p q hp hq)).2⟩
    have pos : ∀ {fs gs : List Obj}, (∀ p ∈ fs, sizeOf p < sizeOf x) →
        fs.map (fun p => p.reset) = gs.map (fun p => p.reset) →
        fs.length = gs.length ∧ ∀ (i : Nat) p q, fs[i]? = some p → gs[i]? = some q → p.SeenAs q := by
      intro fs gs hs he
      obtain ⟨hn, hi⟩ := idx_of_map_eq he
      exact ⟨hn, fun i p q hp hq => ih p (hs p (List.mem_of_getElem? hp)) (hi i p q hp hq)⟩
    have sz1 : ∀ {fs : List (String × Obj)} {p}, p ∈ fs → sizeOf p.2 < sizeOf fs := fun hp => by
      have := List.sizeOf_lt_of_mem hp
      cases ‹String × Obj›; simp at this ⊢; omega
    cases x <;> cases y <;> simp only [Obj.reset, Obj.struct.injEq, Obj.tupleStruct.injEq, Obj.tuple.injEq,
      Obj.enumS.injEq, Obj.enumT.injEq, Obj.enumU.injEq, Obj.vec.injEq, Obj.array.injEq, Obj.map.injEq,
      Obj.scalar.injEq, Obj.nonzero.injEq, reduceCtorEq] at h
    case scalar => subst h; exact .scalar _
    case nonzero => obtain ⟨rfl, rfl⟩ := h; exact .nonzero _ _
    case hidden => exact .hidden _ _
    case enumU => obtain ⟨rfl, rfl⟩ := h; exact .enumU _ _
    case struct =>
      obtain ⟨rfl, h⟩ := h
      obtain ⟨h1, h2⟩ := named (fun p hp => by have := sz1 hp; simp; omega) h
      exact .struct _ _ _ h1 h2
    case enumS =>
      obtain ⟨rfl, rfl, h⟩ := h
      obtain ⟨h1, h2⟩ := named (fun p hp => by have := sz1 hp; simp; omega) h
      exact .enumS _ _ _ _ h1 h2
    case tupleStruct =>
      obtain ⟨rfl, h⟩ := h
      obtain ⟨h1, h2⟩ := pos (fun p hp => by have := List.sizeOf_lt_of_mem hp; simp; omega) h
      exact .tupleStruct _ _ _ h1 h2
    case tuple =>
      obtain ⟨rfl, h⟩ := h
      obtain ⟨h1, h2⟩ := pos (fun p hp => by have := List.sizeOf_lt_of_mem hp; simp; omega) h
      exact .tuple _ _ _ h1 h2
    case enumT =>
      obtain ⟨rfl, rfl, h⟩ := h
      obtain ⟨h1, h2⟩ := pos (fun p hp => by have := List.sizeOf_lt_of_mem hp; simp; omega) h
      exact .enumT _ _ _ _ h1 h2
    case vec =>
      obtain ⟨rfl, h⟩ := h
      obtain ⟨h1, h2⟩ := pos (fun p hp => by have := List.sizeOf_lt_of_mem hp; simp; omega) h
      exact .vec _ _ _ h1 h2
    case array =>
      obtain ⟨rfl, h⟩ := h
      obtain ⟨h1, h2⟩ := pos (fun p hp => by have := List.sizeOf_lt_of_mem hp; simp; omega) h
      exact .array _ _ _ h1 h2
    case map kt vt kvs kt' vt' lws =>
      obtain ⟨rfl, rfl, h⟩ := h
      obtain ⟨hn, hi⟩ := idx_of_map_eq h
      have sz : ∀ p ∈ kvs, sizeOf p.1 < sizeOf (Obj.map kt vt kvs) ∧ sizeOf p.2 < sizeOf (Obj.map kt vt kvs) := by
        intro p hp
        have := List.sizeOf_lt_of_mem hp
        obtain ⟨a, b⟩ := p
        simp at this ⊢; omega
      exact .map _ _ _ _ hn
        (fun i p q hp hq => ih _ (sz p (List.mem_of_getElem? hp)).1 (Prod.mk.inj (hi i p q hp hq)).1)
        (fun i p q hp hq => ih _ (sz p (List.mem_of_getElem? hp)).2 (Prod.mk.inj (hi i p q hp hq)).2)

theorem seenAs_iff {x y : Obj} : x.SeenAs y ↔ x.reset = y.reset := ⟨Obj.SeenAs.reset, Obj.seenAs_of_reset⟩

theorem seenAlike_iff {a b : Option Obj} : SeenAlike a b ↔ a.map Obj.reset = b.map Obj.reset := by
  constructor
  · intro h
    cases h with
    | none => rfl
    | some x y h => simp only [Option.map_some, h.reset]
  · intro h
    cases a <;> cases b <;> simp only [Option.map_none, Option.map_some, reduceCtorEq, Option.some.injEq] at h
    · exact .none
    · exact .some _ _ (Obj.seenAs_of_reset h)

/-! ## The theorems -/

/-- C73: values that differ only in skipped fields become the same `Value`. -/
theorem C73_to_value {x x' : Obj} (h : x.SeenAs x') : x.toValue = x'.toValue := by
  rw [← toValue_reset x, h.reset, toValue_reset]

/-- C73: they are of the same concrete type, answer `reflect_ref` with the same kind, hold the same variant,
and have as many fields. -/
theorem C73_shape {x x' : Obj} (h : x.SeenAs x') :
    x.typeOf = x'.typeOf ∧ x.kind = x'.kind ∧ x.variantName = x'.variantName ∧
      x.variantKind = x'.variantKind ∧ x.fieldsLen = x'.fieldsLen ∧ x.asScalar = x'.asScalar := by
  have h := h.reset
  refine ⟨?_, ?_, ?_, ?_, ?_, ?_⟩
  · rw [← reset_typeOf x, h, reset_typeOf]
  · rw [← reset_kind x, h, reset_kind]
  · rw [← reset_variantName x, h, reset_variantName]
  · rw [← reset_variantKind x, h, reset_variantKind]
  · rw [← reset_fieldsLen x, h, reset_fieldsLen]
  · rw [← reset_asScalar x, h, reset_asScalar]

/-- C73: their accessors find the same fields, which again differ only in skipped fields. -/
theorem C73_fields {x x' : Obj} (h : x.SeenAs x') (n : String) (i : Nat) :
    SeenAlike (x.field n) (x'.field n) ∧ SeenAlike (x.fieldAt i) (x'.fieldAt i) ∧
      x.nameAt i = x'.nameAt i := by
  have h := h.reset
  refine ⟨seenAlike_iff.mpr ?_, seenAlike_iff.mpr ?_, ?_⟩
  · rw [← reset_field, ← reset_field, h]
  · rw [← reset_fieldAt, ← reset_fieldAt, h]
  · rw [← reset_nameAt x, h, reset_nameAt]

/-- C73: `reflect_eq` gives the same answer. -/
theorem C73_reflect_eq {E : Env} (hO : OrdLaws E) (hK : KeysShown E) {x x' y y' : Obj}
    (hx : x.OK E) (hx' : x'.OK E) (hy : y.OK E) (hy' : y'.OK E) (h : x.SeenAs x') (g : y.SeenAs y') :
    reflectEq E x y = reflectEq E x' y' := by
  rw [← reflectEq_reset hO hK hx hy, h.reset, g.reset, reflectEq_reset hO hK hx' hy']

/-- C73: `T::from_reflect` succeeds on both or neither, and the results differ only in skipped fields. -/
theorem C73_from_reflect {E : Env} (hO : OrdLaws E) (hK : KeysShown E) (T : Ty) {x x' : Obj} (hx : x.OK E)
    (hx' : x'.OK E) (h : x.SeenAs x') : SeenAlike (fromReflect E T x) (fromReflect E T x') := by
  rw [seenAlike_iff, ← fromReflect_reset_comm hO hK T x hx, h.reset, fromReflect_reset_comm hO hK T x' hx']

/-- C73: patching them with values that differ only in skipped fields leaves them so. -/
theorem C73_patch {E : Env} (hO : OrdLaws E) (hK : KeysShown E) {x x' v v' : Obj}
    (hx : x.OK E) (hx' : x'.OK E) (hv : v.OK E) (hv' : v'.OK E) (h : x.SeenAs x') (g : v.SeenAs v') :
    (patch E x v).SeenAs (patch E x' v') := by
  rw [seenAs_iff, ← patch_reset hO hK hv hx, h.reset, g.reset, patch_reset hO hK hv' hx']

/-- C73: `clone_reflect` panics on both or neither, and the clones differ only in skipped fields. -/
theorem C73_clone {E : Env} (hO : OrdLaws E) (hK : KeysShown E) {x x' : Obj} (hx : x.OK E) (hx' : x'.OK E)
    (h : x.SeenAs x') : SeenAlike (cloneReflect E x) (cloneReflect E x') := by
  rw [seenAlike_iff, ← cloneReflect_reset hO hK hx, h.reset, cloneReflect_reset hO hK hx']

/-- C73: `at` finds something in both or neither, and the finds differ only in skipped fields. -/
theorem C73_at {E : Env} (hO : OrdLaws E) (hK : KeysShown E) {x x' : Obj} (hx : x.OK E) (hx' : x'.OK E)
    (h : x.SeenAs x') {p : KeyPath} (hp : p.WF) : SeenAlike (atPath E x p) (atPath E x' p) := by
  rw [seenAlike_iff, ← atPath_reset hO hK hx hp, h.reset, atPath_reset hO hK hx' hp]

/-- C73: a map answers lookups with keys that differ only in skipped fields alike. -/
theorem C73_map_get {E : Env} (hO : OrdLaws E) (hK : KeysShown E) {x x' k k' : Obj} (hx : x.OK E) (hx' : x'.OK E)
    (hk : k.OK E) (hk' : k'.OK E) (h : x.SeenAs x') (g : k.SeenAs k') :
    SeenAlike (x.mapGet E k) (x'.mapGet E k') := by
  rw [seenAlike_iff, ← mapGet_reset hO hK hx hk, h.reset, g.reset, mapGet_reset hO hK hx' hk']

/-- C73: `try_visit` makes the same calls with the same outcome, whatever the visitor does with scalars, if it
answers opaque values that differ only in skipped fields alike. -/
theorem C73_try_visit {σ ε : Type} (g : TypeGraph) {v : Visitor σ ε}
    (hv : ∀ (a b : Obj) (t : Ty) (s : σ), a.SeenAs b → v (.opaque a t) s = v (.opaque b t) s) {x x' : Obj}
    (h : x.SeenAs x') (id : Ty) (s : σ) : tryVisit g v id x s = tryVisit g v id x' s := by
  have hv' : ∀ (a : Obj) (t : Ty) (s : σ), v (.opaque a.reset t) s = v (.opaque a t) s := fun a t s =>
    hv _ _ _ _ (Obj.seenAs_of_reset (reset_reset a))
  rw [← tryVisit_reset g hv' x, h.reset, tryVisit_reset g hv' x']

/-- C73: a value is `reflect_eq` to one that differs from it only in skipped fields exactly if it is to
itself. -/
theorem C73_reflect_eq_each_other {E : Env} (hD : DeclsOK E) (hO : OrdLaws E) (hK : KeysShown E) {x x' : Obj}
    (hx : x.OK E) (hx' : x'.OK E) (h : x.SeenAs x') :
    reflectEq E x x' = some true ↔ x.EqualsItself E := by
  rw [← C73_reflect_eq hO hK hx hx hx hx' (seenAs_iff.mpr rfl) h]
  exact reflectEq_self_iff hD hO hK hx

/-- C73, the other way: nothing but skipped fields is left out. Two values of one type have the same `Value`
exactly if they differ at most in their skipped fields. -/
theorem C73_only_skipped {E : Env} (hD : DeclsOK E) (hO : OrdLaws E) (hK : KeysShown E) {T : Ty} {x x' : Obj}
    (hx : HasTy E T x) (hx' : HasTy E T x') : x.toValue = x'.toValue ↔ x.SeenAs x' :=
  ⟨fun h => Obj.seenAs_of_reset (toValue_inj_reset hD hO hK hx hx' h), C73_to_value⟩

/-! ## Non-vacuity -/

/-- `demoSecret` with something else in its skipped field. -/
def otherSecret : Obj :=
  .struct (.derived "Secret") [("a", .scalar (.int .u8 7)), ("hidden", .hidden 8),
    ("b", .vec (.scalar (.int .u8)) [.scalar (.int .u8 1), .scalar (.int .u8 2)])]

theorem otherSecret_hasTy : HasTy demoEnv (.named "Secret") otherSecret := by
  refine .struct "Secret" _ false _ rfl rfl ?_ ?_
  · intro i fd p hfd hp hs
    match i with
    | 0 => simp at hfd; subst hfd; simp at hs
    | 1 => simp at hp; subst hp; rfl
    | 2 => simp at hfd; subst hfd; simp at hs
    | i + 3 => simp at hfd
  · intro i fd p hfd hp hs
    match i with
    | 0 => simp at hfd hp; subst hfd hp; exact .scalar' rfl
    | 1 => simp at hfd; subst hfd; simp at hs
    | 2 =>
      simp at hfd hp; subst hfd hp
      refine .vec _ _ ?_
      intro x hx
      simp at hx
      rcases hx with rfl | rfl <;> exact .scalar' rfl

theorem otherSecret_seenAs : demoSecret.SeenAs otherSecret :=
  seenAs_iff.mpr (by simp [demoSecret, otherSecret, Obj.reset])

/-- The two are different values with all hypotheses of the theorems of this file. -/
example : demoSecret ≠ otherSecret ∧ demoSecret.SeenAs otherSecret ∧ demoSecret.OK demoEnv ∧
    otherSecret.OK demoEnv ∧ demoSecret.toValue = otherSecret.toValue :=
  ⟨by simp [demoSecret, otherSecret], otherSecret_seenAs, ⟨_, demoSecret_hasTy⟩, ⟨_, otherSecret_hasTy⟩,
    C73_to_value otherSecret_seenAs⟩

/-- Two `Secret`s that show something different do not become the same `Value`. -/
example : ¬ demoSecret.SeenAs (.struct (.derived "Secret") [("a", .scalar (.int .u8 6)), ("hidden", .hidden 3),
    ("b", .vec (.scalar (.int .u8)) [.scalar (.int .u8 1), .scalar (.int .u8 2)])]) := by
  rw [seenAs_iff]
  simp [demoSecret, Obj.reset]

end Mirror
