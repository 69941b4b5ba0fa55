import Verif.Lemmas.Sound

set_option linter.unusedSimpArgs false

/-!
# A concrete type environment

Used by the non-vacuity examples beside the theorems, and by counterexamples.
-/

namespace Mirror

theorem HasTy.scalar' {E : Env} {s : Scalar} {k : ScalarKind} (h : s.kind = k) :
    HasTy E (.scalar k) (.scalar s) := h ▸ .scalar s

/-- Environments whose map keys are ordered by the order of their `Value`s. -/
def valueOrdEnv (decl : String → Option TyDef) : Env :=
  ⟨decl, fun _ a b => Value.cmp a.toValue b.toValue⟩

theorem valueOrdEnv_ordLaws (decl) : OrdLaws (valueOrdEnv decl) where
  refl _ a _ := Value.cmp_self _
  swap _ a b _ _ := Value.cmp_swap _ _
  lt_trans _ _ _ _ _ _ _ h h' := Value.cmp_lt_trans h h'
  eq_trans _ a b c _ _ _ h := valueCmpOn.eq_trans _ _ _ trivial trivial trivial h
  value a b ha hb := by simp [valueOrdEnv, Value.toObj_toValue ha, Value.toObj_toValue hb]

theorem valueOrdEnv_keysShown (decl) : KeysShown (valueOrdEnv decl) := fun _ _ _ _ _ h => h

/-- `struct Point { x: i32, y: f32 }`, `struct Secret { a: u8, hidden: _ (skip), b: Vec<u8> }`,
`struct Pair(i32, _ (skip))`, `enum Shape { Circle { r: f32 }, Rect(i32, Box<Shape>), Empty }`,
`struct Tree { val: NonZeroU8, kids: Vec<Tree>, names: BTreeMap<String, u8> }`, and `Opt` with
`opt_out(Clone)`: `enum Opt { Some(Point), None }`. -/
def demoDecl : String → Option TyDef
  | "Point" => some ⟨.struct [⟨"x", .scalar (.int .i32), false⟩, ⟨"y", .scalar .f32, false⟩], false⟩
  | "Secret" => some ⟨.struct [⟨"a", .scalar (.int .u8), false⟩, ⟨"hidden", .scalar .bool, true⟩,
      ⟨"b", .vec (.scalar (.int .u8)), false⟩], false⟩
  | "Pair" => some ⟨.tupleStruct [⟨"", .scalar (.int .i32), false⟩, ⟨"", .scalar .bool, true⟩], false⟩
  | "Shape" => some ⟨.enum [.struct "Circle" [⟨"r", .scalar .f32, false⟩],
      .tuple "Rect" [⟨"", .scalar (.int .i32), false⟩, ⟨"", .box (.named "Shape"), false⟩],
      .unit "Empty"], false⟩
  | "Tree" => some ⟨.struct [⟨"val", .nonzero .u8, false⟩, ⟨"kids", .vec (.named "Tree"), false⟩,
      ⟨"names", .map (.scalar .string) (.scalar (.int .u8)), false⟩], false⟩
  | "Opt" => some ⟨.enum [.tuple "Some" [⟨"", .named "Point", false⟩], .unit "None"], true⟩
  | _ => none

/-- The demo environment. -/
def demoEnv : Env := valueOrdEnv demoDecl

theorem demo_declsOK : DeclsOK demoEnv where
  struct_names n fds c h := by
    simp only [demoEnv, valueOrdEnv, demoDecl] at h
    split at h <;> simp at h <;> (obtain ⟨rfl, _⟩ := h; decide)
  variant_names n vds c h := by
    simp only [demoEnv, valueOrdEnv, demoDecl] at h
    split at h <;> simp at h <;> (obtain ⟨rfl, _⟩ := h; decide)
  variant_fields n vds c vn fds h hv := by
    simp only [demoEnv, valueOrdEnv, demoDecl] at h
    split at h <;> simp at h <;> (obtain ⟨rfl, _⟩ := h; simp at hv <;> simp [hv])

theorem demo_ordLaws : OrdLaws demoEnv := valueOrdEnv_ordLaws _
theorem demo_keysShown : KeysShown demoEnv := valueOrdEnv_keysShown _

theorem demo_skipsLast : SkipsLast demoEnv := by
  constructor
  · intro n fds c h i j fd fd' hi hj hs hs'
    simp only [demoEnv, valueOrdEnv, demoDecl] at h
    split at h <;> simp at h
    obtain ⟨rfl, _⟩ := h
    match i, j with
    | 0, _ => simp at hi; subst hi; simp at hs
    | 1, 0 => omega
    | 1, 1 => simp at hj; subst hj; simp at hs'
    | 1, j + 2 => simp at hj
    | i + 2, _ => simp at hi
  · intro n vds c vn fds h hv i j fd fd' hi hj hs hs'
    simp only [demoEnv, valueOrdEnv, demoDecl] at h
    split at h <;> simp at h <;> (obtain ⟨rfl, _⟩ := h; simp at hv)
    · obtain ⟨_, rfl⟩ := hv
      match i with
      | 0 => simp at hi; subst hi; simp at hs
      | 1 => simp at hi; subst hi; simp at hs
      | i + 2 => simp at hi
    · obtain ⟨_, rfl⟩ := hv
      match i with
      | 0 => simp at hi; subst hi; simp at hs
      | i + 1 => simp at hi

/-- `Secret { a: 7, hidden: 3, b: vec![1, 2] }`, the skipped field holding a non-default payload. -/
def demoSecret : Obj :=
  .struct (.derived "Secret") [("a", .scalar (.int .u8 7)), ("hidden", .hidden 3),
    ("b", .vec (.scalar (.int .u8)) [.scalar (.int .u8 1), .scalar (.int .u8 2)])]

/-- `Point { x: -1, y: -0.0 }`. -/
def demoPoint : Obj :=
  .struct (.derived "Point") [("x", .scalar (.int .i32 (-1))), ("y", .scalar (.f32 0x80000000#32))]

/-- `Shape::Rect(3, Box::new(Shape::Circle { r: 0.0 }))`. -/
def demoShape : Obj :=
  .enumT (.derived "Shape") "Rect" [.scalar (.int .i32 3),
    .enumS (.derived "Shape") "Circle" [("r", .scalar (.f32 0#32))]]

/-- A tree with one child and a two entry map. -/
def demoTree : Obj :=
  .struct (.derived "Tree") [("val", .nonzero .u8 5),
    ("kids", .vec (.named "Tree") [.struct (.derived "Tree") [("val", .nonzero .u8 9),
      ("kids", .vec (.named "Tree") []), ("names", .map (.scalar .string) (.scalar (.int .u8)) [])]]),
    ("names", .map (.scalar .string) (.scalar (.int .u8))
      [(.scalar (.string "a"), .scalar (.int .u8 1)), (.scalar (.string "b"), .scalar (.int .u8 2))])]

theorem demoPoint_hasTy : HasTy demoEnv (.named "Point") demoPoint := by
  refine .struct "Point" _ false _ rfl rfl ?_ ?_
  · intro i fd p hfd hp hs
    match i with
    | 0 => simp at hfd; subst hfd; simp at hs
    | 1 => simp at hfd; subst hfd; simp at hs
    | i + 2 => simp at hfd
  · intro i fd p hfd hp hs
    match i with
    | 0 => simp at hfd hp; subst hfd hp; exact .scalar' rfl
    | 1 => simp at hfd hp; subst hfd hp; exact .scalar' rfl
    | i + 2 => simp at hfd

theorem demoSecret_hasTy : HasTy demoEnv (.named "Secret") demoSecret := by
  refine .struct "Secret" _ false _ rfl rfl ?_ ?_
  · intro i fd p hfd hp hs
    match i with
    | 0 => simp at hfd; subst hfd; simp at hs
    | 1 => simp at hp; subst hp; rfl
    | 2 => simp at hfd; subst hfd; simp at hs
    | i + 3 => simp at hfd
  · intro i fd p hfd hp hs
    match i with
    | 0 => simp at hfd hp; subst hfd hp; exact .scalar' rfl
    | 1 => simp at hfd; subst hfd; simp at hs
    | 2 =>
      simp at hfd hp; subst hfd hp
      refine .vec _ _ ?_
      intro x hx
      simp at hx
      rcases hx with rfl | rfl <;> exact .scalar' rfl
    | i + 3 => simp at hfd

theorem demoShape_hasTy : HasTy demoEnv (.named "Shape") demoShape := by
  refine .enumT "Shape" _ false "Rect" _ _ rfl (List.mem_cons_of_mem _ List.mem_cons_self) rfl ?_ ?_
  · intro i fd p hfd hp hs
    match i with
    | 0 => simp at hfd; subst hfd; simp at hs
    | 1 => simp at hfd; subst hfd; simp at hs
    | i + 2 => simp at hfd
  · intro i fd p hfd hp hs
    match i with
    | 0 => simp at hfd hp; subst hfd hp; exact .scalar' rfl
    | 1 =>
      simp at hfd hp; subst hfd hp
      refine .box _ _ (.enumS "Shape" _ false "Circle" _ _ rfl List.mem_cons_self rfl ?_ ?_)
      · intro i fd p hfd hp hs
        match i with
        | 0 => simp at hfd; subst hfd; simp at hs
        | i + 1 => simp at hfd
      · intro i fd p hfd hp hs
        match i with
        | 0 => simp at hfd hp; subst hfd hp; exact .scalar' rfl
        | i + 1 => simp at hfd
    | i + 2 => simp at hfd

theorem tree_hasTy {v : Int} {kids : List Obj} {m : List (Obj × Obj)} (hv : v ≠ 0)
    (hk : ∀ x ∈ kids, HasTy demoEnv (.named "Tree") x)
    (hm : HasTy demoEnv (.map (.scalar .string) (.scalar (.int .u8)))
      (.map (.scalar .string) (.scalar (.int .u8)) m)) :
    HasTy demoEnv (.named "Tree") (.struct (.derived "Tree") [("val", .nonzero .u8 v),
      ("kids", .vec (.named "Tree") kids), ("names", .map (.scalar .string) (.scalar (.int .u8)) m)]) := by
  refine .struct "Tree" _ false _ rfl rfl ?_ ?_
  · intro i fd p hfd hp hs
    match i with
    | 0 => simp at hfd; subst hfd; simp at hs
    | 1 => simp at hfd; subst hfd; simp at hs
    | 2 => simp at hfd; subst hfd; simp at hs
    | i + 3 => simp at hfd
  · intro i fd p hfd hp hs
    match i with
    | 0 => simp at hfd hp; subst hfd hp; exact .nonzero _ _ hv
    | 1 => simp at hfd hp; subst hfd hp; exact .vec _ _ hk
    | 2 => simp at hfd hp; subst hfd hp; exact hm
    | i + 3 => simp at hfd

theorem demoTree_hasTy : HasTy demoEnv (.named "Tree") demoTree := by
  refine tree_hasTy (by decide) ?_ ?_
  · intro x hx
    simp at hx; subst hx
    exact tree_hasTy (by decide) (by simp) (.map _ _ _ (by simp [BMSorted]) (by simp) (by simp))
  · refine .map _ _ _ ?_ ?_ ?_
    · simp [BMSorted, demoEnv, valueOrdEnv, Obj.toValue, Value.cmp]; decide
    · intro p hp; simp at hp; rcases hp with rfl | rfl <;> exact .scalar' rfl
    · intro p hp; simp at hp; rcases hp with rfl | rfl <;> exact .scalar' rfl

end Mirror
