import Verif.Props.Access
import Verif.Props.Mut
import Verif.Props.Path
import Verif.Props.TypePath

set_option linter.unusedSimpArgs false

/-!
# C70: typed access by path
-/

namespace Mirror

variable {E : Env}

/-- The reference that one step of `at` gives, and what it shows. -/
theorem atKeyRefTy_shows (hD : DeclsOK E) (hO : OrdLaws E) {o x : Obj} (h : o.OK E) {k : Key}
    (hx : o.atKey E k = some x) (t : Ty) :
    ∃ s, o.atKeyRefTy E k x = some s ∧ (x.anyTy s = some t ↔ Reveals E (BareKey E o k) t x) := by
  obtain ⟨S, hS⟩ := h
  have hok := OK_atKey ⟨S, hS⟩ hx
  cases k with
  | named n =>
    refine fieldRefTy_shows hD hO hS ?_ t
    cases o <;> simp only [Obj.atKey, Obj.kind, Obj.variantKind, reduceCtorEq] at hx <;> exact hx
  | numbered i =>
    refine fieldAtRefTy_shows hO hS ?_ ?_ t
    · cases o <;> simp only [Obj.atKey, Obj.kind, Obj.variantKind, reduceCtorEq] at hx <;> exact hx
    · cases o <;> simp [Obj.atKey, Obj.kind] at hx ⊢
  | get v => exact plain_shows hO hok (fun h => by cases h) t
  | variant v => exact plain_shows hO hok (fun h => by cases h) t

theorem barePath_nil (o : Obj) : ¬BarePath E o [] := by
  rintro ⟨q, k, x, h, _⟩; cases q <;> cases h

theorem barePath_single (o : Obj) (k : Key) : BarePath E o [k] ↔ BareKey E o k := by
  constructor
  · rintro ⟨q, k', x, h, hx, hb⟩
    cases q with
    | nil => cases h; cases hx; exact hb
    | cons a q => injection h with _ h; cases q <;> cases h
  · intro hb; exact ⟨[], k, o, rfl, rfl, hb⟩

theorem barePath_cons {o x : Obj} {k k' : Key} {p : KeyPath} (hx : o.atKey E k = some x) :
    BarePath E o (k :: k' :: p) ↔ BarePath E x (k' :: p) := by
  constructor
  · rintro ⟨q, l, y, h, hy, hb⟩
    cases q with
    | nil => injection h with _ h; cases h
    | cons a q =>
      injection h with h1 h2
      subst h1
      rw [atPath_cons, hx, Option.bind_some] at hy
      exact ⟨q, l, y, h2, hy, hb⟩
  · rintro ⟨q, l, y, h, hy, hb⟩
    exact ⟨k :: q, l, y, by rw [h]; rfl, by rw [atPath_cons, hx, Option.bind_some]; exact hy, hb⟩

theorem atRefTy_shows (hD : DeclsOK E) (hO : OrdLaws E) (t : Ty) {y : Obj} : ∀ (p : KeyPath) {o : Obj},
    o.OK E → atPath E o p = some y →
    ∃ s, atRefTy E o p = some s ∧ (y.anyTy s = some t ↔ Reveals E (BarePath E o p) t y)
  | [], o, h, hy => by
    cases hy
    exact plain_shows hO h (barePath_nil _) t
  | [k], o, h, hy => by
    rw [atPath_cons] at hy
    obtain ⟨x, hx, hy⟩ := Option.bind_eq_some_iff.mp hy
    cases hy
    obtain ⟨s, hs, he⟩ := atKeyRefTy_shows hD hO h hx t
    exact ⟨s, by simp only [atRefTy, hx, Option.bind_some, hs],
      he.trans (Reveals.congr (barePath_single o k).symm)⟩
  | k :: k' :: p, o, h, hy => by
    rw [atPath_cons] at hy
    obtain ⟨x, hx, hy⟩ := Option.bind_eq_some_iff.mp hy
    obtain ⟨s, hs, he⟩ := atRefTy_shows hD hO t (k' :: p) (OK_atKey h hx) hy
    refine ⟨s, ?_, he.trans (Reveals.congr (barePath_cons hx).symm)⟩
    rw [atRefTy, hx]; exact hs

/-- C70, exactly: `get_at::<T>(p)` is the part at `p` if `T` is the type it shows, and nothing otherwise. -/
theorem C70_get_at_exact (hD : DeclsOK E) (hO : OrdLaws E) {S t : Ty} {x y : Obj} {p : KeyPath}
    (h : HasTy E S x) : getAt E x p t = some y ↔ atPath E x p = some y ∧ Reveals E (BarePath E x p) t y := by
  unfold getAt
  exact downcast_bind (f := fun _ => atRefTy E x p) fun z hz => atRefTy_shows hD hO t p ⟨S, h⟩ hz

/-- C70, in the words of the property: `get_at::<T>(p)` is the part at `p` if it is a `T`, and nothing
otherwise. Missing for the full property: `StructValue` and `EnumValue` (`C70_struct_value_misses`), `Value`
and boxes. -/
theorem C70_get_at_partial (hD : DeclsOK E) (hO : OrdLaws E) {S t : Ty} {x y : Obj} {p : KeyPath}
    (h : HasTy E S x) (hc : t.Concrete) (h1 : t ≠ .structValue) (h2 : t ≠ .enumValue) :
    getAt E x p t = some y ↔ atPath E x p = some y ∧ HasTy E t y := by
  rw [C70_get_at_exact hD hO h, shows_plain hc h1 h2]

/-- C70 fails for every struct and enum that is reached as a field of a `StructValue`, or as a field or tuple
element declared as `Value`: it is there, it is a `StructValue` or `EnumValue`, and `get_at` misses it; it is
found as a `Box`. -/
theorem C70_struct_value_misses (hD : DeclsOK E) (hO : OrdLaws E) {S u : Ty} {x y : Obj} {p : KeyPath}
    (hu : u = .structValue ∨ u = .enumValue) (h : HasTy E S x) (hy : atPath E x p = some y)
    (ht : HasTy E u y) (hb : BarePath E x p) :
    getAt E x p u = none ∧ getAt E x p (.box u) = some y := by
  constructor
  · cases hg : getAt E x p u with
    | none => rfl
    | some z =>
      have hs := ((C70_get_at_exact hD hO h).mp hg).2
      rcases hu with rfl | rfl
      · cases hs with | content _ _ _ _ hn => exact absurd rfl (hn hb).1
      · cases hs with | content _ _ _ _ hn => exact absurd rfl (hn hb).2
  · refine (C70_get_at_exact hD hO h).mpr ⟨hy, ?_⟩
    rcases hu with rfl | rfl
    · exact .struct _ hb ht
    · exact .enum _ hb ht

/-- C70: for all other places also these are found, in particular as elements of dynamic tuples, lists and
maps, and at the end of the empty path. -/
theorem C70_struct_value_found (hD : DeclsOK E) (hO : OrdLaws E) {S u : Ty} {x y : Obj} {p : KeyPath}
    (h : HasTy E S x) (hc : u.Concrete) (hy : atPath E x p = some y) (ht : HasTy E u y)
    (hb : ¬BarePath E x p) : getAt E x p u = some y :=
  (C70_get_at_exact hD hO h).mpr ⟨hy, (shows_not hb).mpr ⟨ht, hc⟩⟩

/-- C70: `get_at_mut` gives a reference to what `get_at` gives, and nothing when that gives nothing. -/
theorem C70_get_at_mut_agrees (x : Obj) (p : KeyPath) (t : Ty) :
    (getAtMut E x p t).map (·.get) = getAt E x p t := by
  unfold getAtMut getAt
  rw [downcast_get _ (fun _ => atRefTy E x p), atMutPath_get]

/-- C70: assigning a `T` through `get_at_mut::<T>(p)` keeps the type of the whole; `get_at::<T>(p)` then gives
it, and nothing off the path changes. If the path ends with a variant, the new value must be of that variant. -/
theorem C70_get_at_mut_assigns (hD : DeclsOK E) (hO : OrdLaws E) {S t : Ty} {x y : Obj} {p : KeyPath}
    {pl : Place} (h : HasTy E S x) (hp : KeyPath.WF p) (hc : t.Concrete) (h1 : t ≠ .structValue)
    (h2 : t ≠ .enumValue) (hg : getAtMut E x p t = some pl) (hy : HasTy E t y)
    (hv : ∀ v, p.getLast? = some (.variant v) → y.variantName = some v) :
    HasTy E S (pl.put y) ∧ getAt E (pl.put y) p t = some y ∧
    ∀ q, KeyPath.WF q → Diverge E x p q → atPath E (pl.put y) q = atPath E x q := by
  have hat : atMutPath E x p = some pl := by
    unfold getAtMut at hg
    obtain ⟨pl', hpl, hg⟩ := Option.bind_eq_some_iff.mp hg
    obtain ⟨s, _, hg⟩ := Option.bind_eq_some_iff.mp hg
    unfold Place.downcast at hg
    split at hg <;> cases hg
    exact hpl
  have hget : getAt E x p t = some pl.get := by rw [← C70_get_at_mut_agrees, hg]; rfl
  have hty := ((C70_get_at_partial hD hO h hc h1 h2).mp hget).2
  have hS := C28_write_keeps_type E hO S t x y p pl h hat (hty.typeOf_concrete hc) hy
  exact ⟨hS, (C70_get_at_partial hD hO hS hc h1 h2).mpr
    ⟨C28_write_then_read E hO S x y p pl h hp hat ⟨t, hy⟩ hv, hy⟩,
    fun q hq hd => C28_rest_unchanged E hO S x y p q pl h hp hq hat ⟨t, hy⟩ hd⟩

/-- C70, with types: if `type_at(p)` is `U`, then `get_at::<U>(p)` gives whatever `at(p)` gives, and
`get_at::<V>(p)` gives nothing for every other `V`. Missing for the full property: paths to an index with a
skipped field before it, for which `type_at` is wrong (C29), the dynamic types and boxes. -/
theorem C70_get_at_declared_partial (hD : DeclsOK E) (hO : OrdLaws E) {fuel : Nat}
    {T U V : Ty} {d : TypeDescriptor} {n : TypeNode} (hd : describe E fuel T = some d) {x : Obj}
    (hx : HasTy E T x)
    {p : KeyPath} (hcl : ClearPath E x p) (ht : d.typeAt p = some (some (.ty U n))) (hc : U.Concrete) (h1 : U ≠ .structValue)
    (h2 : U ≠ .enumValue) :
    getAt E x p U = atPath E x p ∧
      (V.Concrete → V ≠ .structValue → V ≠ .enumValue → V ≠ U → getAt E x p V = none) := by
  have key : ∀ y, atPath E x p = some y → HasTy E U y := by
    intro y hy
    cases type_at_sound_partial hD hd hx hcl ht hy with
    | ty _ _ _ h => exact h
  constructor
  · refine Option.ext fun y => ?_
    rw [C70_get_at_partial hD hO hx hc h1 h2]
    exact ⟨fun h => h.1, fun h => ⟨h, key y h⟩⟩
  · intro hVc hV1 hV2 hne
    cases hg : getAt E x p V with
    | none => rfl
    | some y =>
      obtain ⟨hy, hV⟩ := (C70_get_at_partial hD hO hx hVc hV1 hV2).mp hg
      have a := hV.typeOf_concrete hVc
      rw [(key y hy).typeOf_concrete hc] at a
      exact absurd (Option.some.inj a).symm hne

/-! ## Concrete cases -/

/-- In the tree, `.kids[0].val` as a `NonZeroU8` and as a `u8`. -/
example : getAt demoEnv demoTree [.named "kids", .get (.scalar (.int .i32 0)), .named "val"] (.nonzero .u8) =
      some (.nonzero .u8 9) ∧
    getAt demoEnv demoTree [.named "kids", .get (.scalar (.int .i32 0)), .named "val"] (.scalar (.int .u8)) =
      none := by
  have := C70_get_at_declared_partial (E := demoEnv) (fuel := 10) (T := .named "Tree") (U := .nonzero .u8)
    (V := .scalar (.int .u8)) (n := .opaque) demo_declsOK demo_ordLaws rfl demoTree_hasTy
    (p := [.named "kids", .get (.scalar (.int .i32 0)), .named "val"])
    ((demoTree_hasTy.noGaps demo_skipsLast).clearPath demo_ordLaws ⟨_, demoTree_hasTy⟩ (y := .nonzero .u8 9) rfl) rfl trivial (by simp) (by simp)
  exact ⟨this.1, this.2 trivial (by simp) (by simp) (by simp)⟩

/-- Writing 7 to that `NonZeroU8`. -/
example : ∃ pl, getAtMut demoEnv demoTree [.named "val"] (.nonzero .u8) = some pl ∧
    getAt demoEnv (pl.put (.nonzero .u8 7)) [.named "val"] (.nonzero .u8) = some (.nonzero .u8 7) ∧
    HasTy demoEnv (.named "Tree") (pl.put (.nonzero .u8 7)) := by
  cases hg : getAtMut demoEnv demoTree [.named "val"] (.nonzero .u8) with
  | none =>
    have := C70_get_at_mut_agrees (E := demoEnv) demoTree [.named "val"] (.nonzero .u8)
    rw [hg] at this
    have e : getAt demoEnv demoTree [.named "val"] (.nonzero .u8) = some (.nonzero .u8 5) := rfl
    rw [e] at this
    simp at this
  | some pl =>
    have := C70_get_at_mut_assigns demo_declsOK demo_ordLaws demoTree_hasTy (t := .nonzero .u8)
      (y := .nonzero .u8 7)
      (by intro v hv; simp at hv) trivial (by simp) (by simp) hg (.nonzero _ _ (by decide)) (by simp)
    exact ⟨pl, rfl, this.2.1, this.1⟩

/-- A `StructValue` inside a `StructValue` is missed; in a list of `Value`s it is found. -/
example :
    let inner := (Value.struct ["a"] [("a", .scalar (.int .u8 1))]).toObj
    let outer := Obj.struct (.dyn ["inner"]) [("inner", inner)]
    BarePath demoEnv outer [.named "inner"] ∧ getAt demoEnv outer [.named "inner"] .structValue = none ∧
    getAt demoEnv outer [.named "inner"] (.box .structValue) = some inner ∧
    getAt demoEnv (.vec .value [inner]) [.get (.scalar (.int .u8 0))] .structValue = some inner := by
  intro inner outer
  have hw : (Value.struct ["a"] [("a", .scalar (.int .u8 1))]).WF :=
    .struct _ _ (by simp) (by simp [BMSorted]) (by simp; exact .scalar _)
  have hi : HasTy demoEnv .structValue inner := .structValue _ _ _ hw rfl
  have ho : HasTy demoEnv .structValue outer :=
    .structValue ["inner"] [("inner", .struct ["a"] [("a", .scalar (.int .u8 1))])] _
      (.struct _ _ (by simp) (by simp [BMSorted]) (by simpa using hw)) (by simp [outer, inner, Value.toObj])
  have hb : BarePath demoEnv outer [.named "inner"] := ⟨[], _, outer, rfl, rfl, .structValue _ _ _⟩
  have hat : atPath demoEnv outer [.named "inner"] = some inner := by
    simp [outer, inner, atPath_cons, atPath_nil, Obj.atKey, Obj.kind, Obj.field, visFields, lookup, Value.toObj,
      Obj.isHidden]
  have hm := C70_struct_value_misses demo_declsOK demo_ordLaws (.inl rfl) ho hat hi hb
  refine ⟨hb, hm.1, hm.2, ?_⟩
  refine C70_struct_value_found (S := .vec .value) demo_declsOK demo_ordLaws ?_ trivial rfl hi ?_
  · exact .vec _ _ (by simp; exact .value _ _ hw rfl)
  · rintro ⟨q, k, x, h, hx, hb⟩
    cases q with
    | nil => cases h; cases hx; cases hb
    | cons a q => injection h with _ h; cases q <;> cases h

end Mirror
