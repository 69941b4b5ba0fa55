import Verif.Lemmas.Address
import Verif.Lemmas.Demo

set_option linter.unusedSimpArgs false

/-!
# C79: a patch changes the parts it mentions and no others

A user who wants to change one part of a value sends a `Value` that mentions just that part: a struct with one
field, a list with the elements up to the one meant, a map with one entry, one inside another. Such a patch does
to the part what patching the part itself does, and touches nothing else; and if there is no such part, nothing
happens at all.
-/

namespace Mirror

theorem leads_at {E : Env} {x : Obj} {ss : List Step} (h : Leads E x ss) :
    ∃ y, atPath E x (ss.map Step.key) = some y := by
  induction ss generalizing x with
  | nil => exact ⟨x, rfl⟩
  | cons s ss ih =>
    obtain ⟨_, y, h1, h2⟩ := h
    obtain ⟨z, hz⟩ := ih h2
    exact ⟨z, by rw [List.map_cons, atPath_cons, h1]; exact hz⟩

/-- C79: a patch that mentions one part is the patch of that part, put back in its place. -/
theorem C79_addressed (E : Env) (hD : DeclsOK E) (hO : OrdLaws E) (T : Ty) (x : Obj) (ss : List Step) (v : Value)
    (hx : HasTy E T x) (hs : ∀ s ∈ ss, s.WF) (hv : v.WF) (hl : Leads E x ss) :
    ∃ pl, atMutPath E x (ss.map Step.key) = some pl ∧
      patch E x (wrapAll ss v).toObj = pl.put (patch E pl.get v.toObj) := by
  have h := (wrapAll_patch hD hO hs hv ⟨T, hx⟩).1 hl
  obtain ⟨y, hy⟩ := leads_at hl
  have hg := atMutPath_get E x (ss.map Step.key)
  rw [hy] at hg
  cases hp : atMutPath E x (ss.map Step.key) with
  | none => rw [hp] at hg; cases hg
  | some pl => exact ⟨pl, rfl, by rw [h, upd, hp]⟩

/-- C79: so the part is found patched, and every other part is found as it was. -/
theorem C79_addressed_reads (E : Env) (hD : DeclsOK E) (hO : OrdLaws E) (T : Ty) (x y : Obj) (ss : List Step)
    (v : Value) (hx : HasTy E T x) (hs : ∀ s ∈ ss, s.WF) (hv : v.WF) (hl : Leads E x ss)
    (hy : atPath E x (ss.map Step.key) = some y) :
    atPath E (patch E x (wrapAll ss v).toObj) (ss.map Step.key) = some (patch E y v.toObj) ∧
    ∀ q, KeyPath.WF q → Diverge E x (ss.map Step.key) q →
      atPath E (patch E x (wrapAll ss v).toObj) q = atPath E x q := by
  have h := (wrapAll_patch hD hO hs hv ⟨T, hx⟩).1 hl
  have hk : Keeps E fun y => patch E y v.toObj := fun S z hz => patch_hasTy hO _ hv.ok hz
  rw [h]
  constructor
  · refine upd_read hO hk ?_ ⟨T, hx⟩ hy
    intro n hn
    have := List.mem_of_getLast? hn
    rw [List.mem_map] at this
    obtain ⟨s, _, hs⟩ := this
    cases s <;> cases hs
  · intro q hq hd
    refine upd_frame hO hk hd ⟨T, hx⟩ ?_ hq
    intro a ha
    rw [List.mem_map] at ha
    obtain ⟨s, h1, h2⟩ := ha
    have := hs s h1
    cases s <;> simp only [Step.key, Key.get.injEq, reduceCtorEq] at h2
    · subst h2; exact .scalar _
    · subst h2; exact this

/-- C79: a patch that mentions one part which is not there, or which would be reached through values of other
kinds, changes nothing. -/
theorem C79_misaddressed (E : Env) (hD : DeclsOK E) (hO : OrdLaws E) (T : Ty) (x : Obj) (ss : List Step) (v : Value)
    (hx : HasTy E T x) (hs : ∀ s ∈ ss, s.WF) (hv : v.WF) (hl : ¬ Leads E x ss) :
    patch E x (wrapAll ss v).toObj = x :=
  (wrapAll_patch hD hO hs hv ⟨T, hx⟩).2 hl

/-- C79: in general, where both values have a part, and agree in kind on the way there, the patched value has the
patched part. -/
theorem C79_part (E : Env) (hO : OrdLaws E) (S T : Ty) (x v y w : Obj) (p : KeyPath) (hx : HasTy E T x)
    (hv : HasTy E S v) (h : InStep E x v p y w) : atPath E (patch E x v) p = some (patch E y w) :=
  inStep_patch hO h ⟨T, hx⟩ ⟨S, hv⟩

/-- C79: a part that the other value does not have is left alone. -/
theorem C79_unmentioned (E : Env) (hO : OrdLaws E) (S T : Ty) (x v y w z : Obj) (p : KeyPath) (k : Key)
    (hx : HasTy E T x) (hv : HasTy E S v) (h : InStep E x v p y w) (he : y.kind ≠ .enum) (hm : y.kind ≠ .map)
    (hz : y.atKey E k = some z) (hw : w.atKey E k = none) :
    atPath E (patch E x v) (p ++ [k]) = some z := by
  obtain ⟨hy, hw'⟩ := inStep_ok h ⟨T, hx⟩ ⟨S, hv⟩
  rw [atPath_append, C79_part E hO S T x v y w p hx hv h]
  simp only [Option.bind_some, atPath_cons, atPath_nil]
  by_cases hk : w.kind = y.kind
  · rw [patch_atKey hO hy hw' hk he hm, hz, hw]; rfl
  · rw [patch_other_kind hO hy hw' (fun e => hk e) , hz]; rfl

/-- C79: and a part of another kind than the other value has there is left alone. -/
theorem C79_other_kind (E : Env) (hO : OrdLaws E) (S T : Ty) (x v y w : Obj) (p : KeyPath)
    (hx : HasTy E T x) (hv : HasTy E S v) (h : InStep E x v p y w) (hk : w.kind ≠ y.kind) :
    atPath E (patch E x v) p = some y := by
  obtain ⟨hy, hw⟩ := inStep_ok h ⟨T, hx⟩ ⟨S, hv⟩
  rw [C79_part E hO S T x v y w p hx hv h, patch_other_kind hO hy hw hk]

/-- C79: no new parts appear, except entries of maps and what comes with another enum variant. -/
theorem C79_no_new_part (E : Env) (hO : OrdLaws E) (S T : Ty) (x v y w : Obj) (p : KeyPath) (k : Key)
    (hx : HasTy E T x) (hv : HasTy E S v) (h : InStep E x v p y w) (he : y.kind ≠ .enum) (hm : y.kind ≠ .map) :
    (atPath E (patch E x v) (p ++ [k])).isSome = (y.atKey E k).isSome := by
  obtain ⟨hy, hw⟩ := inStep_ok h ⟨T, hx⟩ ⟨S, hv⟩
  rw [atPath_append, C79_part E hO S T x v y w p hx hv h]
  simp only [Option.bind_some, atPath_cons, atPath_nil]
  by_cases hk : w.kind = y.kind
  · rw [patch_atKey hO hy hw hk he hm]; cases y.atKey E k <;> rfl
  · rw [patch_other_kind hO hy hw hk]; cases y.atKey E k <;> rfl

/-! ## Cases -/

/-- The way to the entry "a" of the names of the demo tree, and to the value of its first child. -/
def demoWay : List Step := [.field "names", .entry (.scalar (.string "a"))]
def demoWay' : List Step := [.field "kids", .element 0, .field "val"]

theorem demoWay_leads : Leads demoEnv demoTree demoWay := by
  refine ⟨rfl, _, rfl, rfl, .scalar (.int .u8 1), ?_, trivial⟩
  simp [demoTree, Step.key, Obj.atKey, Obj.kind, Obj.mapGet, fromReflect, Obj.isTy, Obj.typeOf, Scalar.kind, bmGet,
    valueOrdEnv, Obj.toValue, Value.toObj, Value.cmp_self, demoEnv]

theorem demoWay'_leads : Leads demoEnv demoTree demoWay' := by
  refine ⟨rfl, _, rfl, rfl, .struct (.derived "Tree") [("val", .nonzero .u8 9), ("kids", .vec (.named "Tree") []),
    ("names", .map (.scalar .string) (.scalar (.int .u8)) [])], ?_, rfl, .nonzero .u8 9, ?_, trivial⟩
  · simp [demoTree, Step.key, Obj.atKey, Obj.kind, valueToUsize, usizeSize, Obj.fieldAt]
  · simp [Step.key, Obj.atKey, Obj.kind, Obj.field, visFields, Obj.isHidden, lookup]

/-- The hypotheses are met: setting the entry "a" to 5 is possible through a value that mentions nothing else, and
the value of the first child is not affected. -/
example : atPath demoEnv (patch demoEnv demoTree (wrapAll demoWay (.scalar (.int .u8 5))).toObj)
      [.named "names", .get (.scalar (.string "a"))] = some (.scalar (.int .u8 5)) ∧
    atPath demoEnv (patch demoEnv demoTree (wrapAll demoWay (.scalar (.int .u8 5))).toObj)
      [.named "kids", .get (.scalar (.int .usize 0)), .named "val"] =
    atPath demoEnv demoTree [.named "kids", .get (.scalar (.int .usize 0)), .named "val"] := by
  have hw : ∀ s ∈ demoWay, s.WF := by
    intro s hs
    simp only [demoWay, List.mem_cons, List.not_mem_nil, or_false] at hs
    rcases hs with rfl | rfl
    · trivial
    · exact .scalar _
  have h := C79_addressed_reads demoEnv demo_declsOK demo_ordLaws _ demoTree (.scalar (.int .u8 1)) demoWay
    (.scalar (.int .u8 5)) demoTree_hasTy hw (.scalar _) demoWay_leads
    (by
      simp [demoWay, demoTree, Step.key, atPath_cons, atPath_nil, Obj.field, visFields, Obj.isHidden, lookup, Obj.atKey,
        Obj.kind, Obj.mapGet, fromReflect, Obj.isTy, Obj.typeOf, Scalar.kind, bmGet,
        valueOrdEnv, Obj.toValue, Value.toObj, Value.cmp_self, demoEnv])
  constructor
  · refine h.1.trans ?_
    simp [patch_scalar, Value.toObj, Obj.isTy, Obj.typeOf, Scalar.kind]
  · refine h.2 _ ?_ (.here _ _ _ _ _ (.named _ _ _ (by decide)))
    intro v hv
    simp at hv; subst hv; exact .scalar _

/-- What is sent: a struct with one field, a map with one entry. -/
example : wrapAll demoWay (.scalar (.int .u8 5)) =
    .struct ["names"] [("names", .map [(.scalar (.string "a"), .scalar (.int .u8 5))])] := by
  simp [wrapAll, demoWay, Step.wrap, svSetField, svNew, svFinish, svSet, bmInsert]

/-- Through an element of a list the elements before it are sent as `()`, which no element of the list takes. -/
example : patch demoEnv demoTree (wrapAll [.field "kids", .element 7, .field "val"] (.scalar (.int .u8 5))).toObj =
    demoTree := by
  refine C79_misaddressed demoEnv demo_declsOK demo_ordLaws _ demoTree _ _ demoTree_hasTy ?_ (.scalar _) ?_
  · intro s hs
    simp only [List.mem_cons, List.not_mem_nil, or_false] at hs
    rcases hs with rfl | rfl | rfl
    · trivial
    · simp [Step.WF]
    · trivial
  · rintro ⟨_, y, h1, _, z, h2, _⟩
    simp [demoTree, Step.key, Obj.atKey, Obj.kind, Obj.field, visFields, Obj.isHidden, lookup] at h1
    subst h1
    simp [Step.key, Obj.atKey, Obj.kind, valueToUsize, usizeSize, Obj.fieldAt] at h2

/-- A tree against another, two steps deep: a value that mentions a field of the first child and nothing else. -/
example : InStep demoEnv demoTree
      (Value.struct ["kids"] [("kids", .list [.struct ["names"] [("names", .map [])]])]).toObj
      [.named "kids", .get (.scalar (.int .usize 0))]
      (.struct (.derived "Tree") [("val", .nonzero .u8 9), ("kids", .vec (.named "Tree") []),
        ("names", .map (.scalar .string) (.scalar (.int .u8)) [])])
      (Value.struct ["names"] [("names", .map [])]).toObj := by
  refine .step _ _ _ (.vec (.named "Tree") _) (Value.list [.struct ["names"] [("names", .map [])]]).toObj _ _ _
    ?_ ?_ ?_ rfl ?_ (.step _ _ _ _ _ _ _ _ ?_ ?_ ?_ ?_ ?_ (.here _ _)) <;>
  simp [demoTree, Value.toObj, Obj.atKey, Obj.kind, valueToUsize, usizeSize, Obj.fieldAt, Obj.field, visFields,
    Obj.isHidden, lookup]

end Mirror
