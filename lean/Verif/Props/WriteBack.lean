import Verif.Lemmas.WriteBack
import Verif.Props.Versions
import Verif.Props.StandIn

/-!
# Property C85: a program with smaller types writes back what it has read
-/

namespace Mirror

/-- C85. Patching a value with something that only repeats what it holds, however little of it, changes nothing that
is shown: the result is the old value except, possibly, for skipped fields that have been reset. -/
theorem C85_repeats (E : Env) (hD : DeclsOK E) (hO : OrdLaws E) (hK : KeysShown E) (t : Ty) (x v : Obj)
    (hx : HasTy E t x) (hg : x.NoGaps) (hv : HasTy E .value v) (he : Echo x v) :
    (patch E x v).reset = x.reset ∧ (patch E x v).toValue = x.toValue := by
  have h := echo_patch hD hO hK he ⟨_, hx⟩ hg hv
  exact ⟨h, by rw [← toValue_reset, h, toValue_reset]⟩

/-- C85. It can be converted to the type of the value only by completing it: every conversion gives the value itself,
with its skipped fields reset. -/
theorem C85_converts (E : Env) (hD : DeclsOK E) (hO : OrdLaws E) (hK : KeysShown E) (t : Ty) (x v z : Obj)
    (hx : HasTy E t x) (hg : x.NoGaps) (hv : HasTy E .value v) (he : Echo x v) (hz : ConvertsTo E t v z) : z = x.reset :=
  echo_conv hD hO hK hx hg v z he hv ((convertsTo_iff hD).mp hz)

/-- C85. A program whose types are views of the writer's reads whatever the writer writes, what it has read only
repeats what was written, and when it sends that back the writer's value is patched to itself: the fields that the
reader does not know are still there. -/
theorem C85_unchanged (E E' : Env) (hD : DeclsOK E) (hO : OrdLaws E) (hK : KeysShown E) (hD' : DeclsOK E')
    (hO' : OrdLaws E') (hF' : KeysFaithful E') (t t' : Ty) (hview : ViewOf E E' t t') (x : Obj) (hx : HasTy E t x)
    (hg : x.NoGaps) :
    (∃ y, ConvertsTo E' t' x.copied y) ∧
    ∀ y, ConvertsTo E' t' x.copied y → y.NoGaps →
      Echo x y.copied ∧ (patch E x y.copied).reset = x.reset ∧ (patch E x y.copied).toValue = x.toValue := by
  obtain ⟨R, hr, hR⟩ := hview
  constructor
  · obtain ⟨y, hy⟩ := readable_reads hD hD' (fun a b h => (hR a b h).1) x t t' hx hr
    exact ⟨y, (convertsTo_iff hD').mpr hy⟩
  · intro y hy hgy
    rw [convertsTo_iff hD'] at hy
    have he := view_echo hD hO hK hD' hO' hF' hR x y t t' hx hg hr hy hgy
    have hty := fromReflect_sound hO' t' _ ⟨_, value_any hx.copied⟩ hy
    exact ⟨he, C85_repeats E hD hO hK t x _ hx hg (value_any hty.copied) he⟩

/-- C85. The limit of it: an enum ignores a patch with another variant, unless the patch has everything that variant
needs. Whatever variant a smaller program chooses, if the variant has a field that it does not know then its choice
is dropped without a word. -/
theorem C85_variant_dropped (E : Env) (hD : DeclsOK E) (n vn f : String) (vds : List VariantDef) (c : Bool)
    (fds : List FieldDef) (hd : E.decl n = some ⟨.enum vds, c⟩) (hm : .struct vn fds ∈ vds)
    (hf : ∃ fd ∈ declShown fds, fd.name = f) (x v : Obj) (hx : HasTy E (.named n) x) (hv : HasTy E .value v)
    (hvn : v.variantName = some vn) (hne : x.variantName ≠ some vn) (hnf : v.field f = none) : patch E x v = x := by
  have hk : x.kind = .enum ∧ x.typeOf = some (.named n) := by
    cases hx with
    | struct _ _ _ _ h => rw [hd] at h; cases h
    | tupleStruct _ _ _ _ h => rw [hd] at h; cases h
    | enumS => exact ⟨rfl, rfl⟩
    | enumT => exact ⟨rfl, rfl⟩
    | enumU => exact ⟨rfl, rfl⟩
  have hnc : fromReflect E (.named n) v = none := by
    cases h : fromReflect E (.named n) v with
    | none => rfl
    | some z =>
      obtain ⟨fs, -, hfs⟩ := conv_enum_variant hD hd hm hvn h
      obtain ⟨fd, hfd, rfl⟩ := hf
      obtain ⟨hmem, hs⟩ := mem_shown.mp hfd
      obtain ⟨i, hi⟩ := List.getElem?_of_mem hmem
      obtain ⟨p, hp, _⟩ := align_named' hfs.names hi
      obtain ⟨w, hw, _⟩ := hfs.shown i fd p hi hp hs
      rw [hnf] at hw
      cases hw
  rw [patch_enum_derived E hk.1 hk.2, value_not_named hv, Bool.false_and, if_neg (by simp),
    if_pos (variantName_kind hvn), hnc]
  simp only [hvn]
  rw [if_neg fun h => hne h.symm]

/-! ## The hypotheses are met -/

theorem old_keysFaithful : KeysFaithful oldEnv := fun _ _ _ _ _ => Iff.rfl

/-- The older program's `Tree`, which has no `names` and an ordinary integer for `val`, is a view of the newer one's. -/
theorem tree_view : ViewOf demoEnv oldEnv (.named "Tree") (.named "Tree") := by
  refine ⟨fun a b => (a = .named "Tree" ∧ b = .named "Tree") ∨ (a = .vec (.named "Tree") ∧ b = .vec (.named "Tree")) ∨
    (a = .nonzero .u8 ∧ b = .scalar (.int .u8)), .inl ⟨rfl, rfl⟩, ?_⟩
  rintro a b (⟨rfl, rfl⟩ | ⟨rfl, rfl⟩ | ⟨rfl, rfl⟩)
  · refine ⟨.struct _ "Tree" _ _ false (.derived "Tree" _ false rfl) rfl ?_, trivial⟩
    simp [NamedReads, declShown]
  · exact ⟨.vec _ _ (.inl ⟨rfl, rfl⟩), trivial⟩
  · exact ⟨.nonzeroInt _, trivial⟩

theorem old_skipsLast : SkipsLast oldEnv := by
  constructor
  · intro n fds c h i j fd fd' hi hj hs hs'
    simp only [oldEnv, valueOrdEnv, oldDecl] at h
    split at h <;> simp at h
    obtain ⟨rfl, _⟩ := h
    match i with
    | 0 => simp at hi; subst hi; simp at hs
    | i + 1 => simp at hi
  · intro n vds c vn fds h hv i j fd fd' hi hj hs hs'
    simp only [oldEnv, valueOrdEnv, oldDecl] at h
    split at h <;> simp at h <;> (obtain ⟨rfl, _⟩ := h; simp at hv)
    rcases hv with ⟨_, rfl⟩ | ⟨_, rfl⟩ <;>
    · match i with
      | 0 => simp at hi; subst hi; simp at hs
      | i + 1 => simp at hi

-- the older program reads a tree with names, sends its own tree back, and the names stay
example : ∃ y, ConvertsTo oldEnv (.named "Tree") demoTree.copied y ∧
    (patch demoEnv demoTree y.copied).toValue = demoTree.toValue := by
  obtain ⟨⟨y, hy⟩, h⟩ := C85_unchanged demoEnv oldEnv demo_declsOK demo_ordLaws demo_keysShown old_declsOK old_ordLaws
    old_keysFaithful _ _ tree_view demoTree demoTree_hasTy (demoTree_hasTy.noGaps demo_skipsLast)
  have hty := fromReflect_sound old_ordLaws _ _ ⟨_, value_any demoTree_hasTy.copied⟩ ((convertsTo_iff old_declsOK).mp hy)
  exact ⟨y, hy, (h y hy (hty.noGaps old_skipsLast)).2.2⟩

/-- The older program's `Shape`, with tuple variants only and without `Rect`'s second field. -/
theorem shape_view : ViewOf demoEnv oldEnv (.named "Shape") (.named "Shape") := by
  refine ⟨fun a b => (a = .named "Shape" ∧ b = .named "Shape") ∨ (a = .scalar .f32 ∧ b = .scalar .f32) ∨
    (a = .scalar (.int .i32) ∧ b = .scalar (.int .i32)), .inl ⟨rfl, rfl⟩, ?_⟩
  rintro a b (⟨rfl, rfl⟩ | ⟨rfl, rfl⟩ | ⟨rfl, rfl⟩)
  · refine ⟨.enum "Shape" "Shape" _ _ false true rfl rfl ?_, trivial⟩
    simp only [List.mem_cons, List.not_mem_nil, or_false, forall_eq_or_imp, forall_eq]
    refine ⟨⟨_, .inl rfl, rfl, ?_⟩, ⟨_, .inr (.inl rfl), rfl, ?_⟩, ⟨_, .inr (.inr (.inl rfl)), rfl, trivial⟩⟩
    · intro i fd' h hs
      match i with
      | 0 => simp at h; subst h; exact ⟨_, rfl, by simp⟩
      | i + 1 => simp at h
    · intro i fd' h hs
      match i with
      | 0 => simp at h; subst h; exact ⟨_, rfl, by simp⟩
      | i + 1 => simp at h
  · exact ⟨.scalar _, trivial⟩
  · exact ⟨.scalar _, trivial⟩

example : ∃ y, ConvertsTo oldEnv (.named "Shape") demoShape.copied y ∧
    (patch demoEnv demoShape y.copied).toValue = demoShape.toValue := by
  obtain ⟨⟨y, hy⟩, h⟩ := C85_unchanged demoEnv oldEnv demo_declsOK demo_ordLaws demo_keysShown old_declsOK old_ordLaws
    old_keysFaithful _ _ shape_view demoShape demoShape_hasTy (demoShape_hasTy.noGaps demo_skipsLast)
  have hty := fromReflect_sound old_ordLaws _ _ ⟨_, value_any demoShape_hasTy.copied⟩ ((convertsTo_iff old_declsOK).mp hy)
  exact ⟨y, hy, (h y hy (hty.noGaps old_skipsLast)).2.2⟩

-- C85_repeats, C85_converts: a `Point` and only its first coordinate
theorem point_echo : Echo demoPoint (Obj.struct (.dyn ["x"]) [("x", .scalar (.int .i32 (-1)))]) := by
  refine .struct _ _ _ rfl ?_
  intro m y w hy hw
  by_cases hm : m = "x"
  · subst hm
    simp [Obj.field, visFields, lookup, Obj.isHidden] at hy hw
    subst hy hw
    have := Echo.same (.scalar (.int .i32 (-1)))
    rwa [copied_scalar] at this
  · simp [Obj.field, visFields, lookup, Obj.isHidden, Ne.symm hm] at hw

theorem only_x_value : HasTy demoEnv .value (Obj.struct (.dyn ["x"]) [("x", .scalar (.int .i32 (-1)))]) :=
  .value (.struct ["x"] [("x", .scalar (.int .i32 (-1)))]) _
    (.struct _ _ (by simp) (by simp [BMSorted]) (by simp [Value.WF.scalar])) (by simp [Value.toObj])

example : (patch demoEnv demoPoint (Obj.struct (.dyn ["x"]) [("x", .scalar (.int .i32 (-1)))])).toValue =
    demoPoint.toValue :=
  (C85_repeats demoEnv demo_declsOK demo_ordLaws demo_keysShown _ _ _ demoPoint_hasTy (demoPoint_hasTy.noGaps demo_skipsLast)
    only_x_value point_echo).2

example (z : Obj) (hz : ConvertsTo demoEnv (.named "Point") demoPoint.copied z) : z = demoPoint.reset :=
  C85_converts demoEnv demo_declsOK demo_ordLaws demo_keysShown _ _ _ _ demoPoint_hasTy (demoPoint_hasTy.noGaps demo_skipsLast)
    demoPoint_hasTy.copied (.same _) hz

/-- `struct Two(i32, i32)` on one side. -/
def twoDecl : String → Option TyDef
  | "Two" => some ⟨.tupleStruct [⟨"", .scalar (.int .i32), false⟩, ⟨"", .scalar (.int .i32), false⟩], false⟩
  | _ => none

-- the reader must have no gaps: `struct Two(#[reflect(skip)] bool, i32)` reads the second field, and writes it back as
-- the first
example (a b : Int) :
    let x := Obj.tupleStruct (.derived "Two") [.scalar (.int .i32 a), .scalar (.int .i32 b)]
    let y := Obj.tupleStruct (.derived "Gap") [.hidden 0, .scalar (.int .i32 b)]
    fromReflect (valueOrdEnv gapDecl) (.named "Gap") x.copied = some y ∧
    patch (valueOrdEnv twoDecl) x y.copied =
      .tupleStruct (.derived "Two") [.scalar (.int .i32 b), .scalar (.int .i32 b)] := by
  constructor
  · rw [copied_tupleStruct]
    have hd : (valueOrdEnv gapDecl).decl "Gap" =
      some ⟨.tupleStruct [⟨"", .scalar .bool, true⟩, ⟨"", .scalar (.int .i32), false⟩], false⟩ := rfl
    simp [visPos, Obj.isHidden, copied_scalar, fromReflect_tupleStruct hd, Obj.kind, convPos, convField, Obj.fieldAt, visAt,
      optAll, Obj.isTy, Obj.typeOf, Scalar.kind]
  · rw [copied_tupleStruct, patch_tupleStruct]
    simp [visPos, Obj.isHidden, copied_scalar, Obj.kind, patchPos, Obj.fieldAt, visAt, patchO, patch_scalar, Scalar.kind, Obj.isTy,
      Obj.typeOf]

-- C85_variant_dropped: `Empty` patched with a `Circle` whose radius is called otherwise
example : patch demoEnv (.enumU (.derived "Shape") "Empty") (Value.enumT "Circle" [.scalar (.f32 0)]).toObj =
    .enumU (.derived "Shape") "Empty" := by
  refine C85_variant_dropped demoEnv demo_declsOK "Shape" "Circle" "r" _ _ [⟨"r", .scalar .f32, false⟩] rfl (by simp) ?_ _ _
    (.enumU "Shape" _ false "Empty" rfl (by simp)) (.value _ _ (.enumT _ _ (by simp [Value.WF.scalar])) rfl) ?_ ?_ ?_
  · exact ⟨⟨"r", .scalar .f32, false⟩, by simp [declShown], rfl⟩
  · simp [Value.toObj, Obj.variantName]
  · simp [Obj.variantName]
  · simp [Value.toObj, Obj.field]

end Mirror
