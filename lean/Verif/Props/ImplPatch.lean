import Verif.Lemmas.ImplPatch
import Verif.Spec.ImplPatch
import Verif.Props.ImplFrom

/-!
# C100: `patch` with values whose `Reflect` implementation somebody wrote by hand

`patch` on a derived or built-in value depends on the patch only through `reflect_ref`, `as_any` and
`to_value`. What it does is said here for every implementation of those.
-/

namespace Mirror

/-! ## The theorems -/

/-- The number of steps does not matter once there is an answer. -/
theorem C100_one_answer {A : Type} (S : SrcImpl A) (E : Env) (x : Obj) (a : A) (n m : Nat) (y y' : Obj)
    (h : S.patch E n x a = some y) (h' : S.patch E m x a = some y') : y = y' := by
  have h1 := S.patch_mono E n _ (Nat.le_max_left n m) x a y h
  have h2 := S.patch_mono E m _ (Nat.le_max_right n m) x a y' h'
  exact Option.some.inj (h1.symm.trans h2)

/-- With derived and built-in patches this is the `patch` all the other properties are about. -/
theorem C100_derived (E : Env) (x v : Obj) :
    ∃ n, ∀ m, n ≤ m → (Obj.src E).patch E m x v = some (patch E x v) := by
  obtain ⟨n, hn⟩ := Obj.src_patch_steps E v x
  exact ⟨n, fun m hm => (Obj.src E).patch_mono E n m hm x v _ hn⟩

/-- `patch` sees no difference between patches that look alike; on an enum, `patch` also asks whether
they are of the enum's own type. -/
theorem C100_alike {A B : Type} (S : SrcImpl A) (T : SrcImpl B) (R : A → B → Prop) (h : S.Alike T R)
    (E : Env) (x : Obj) (a : A) (b : B) (hab : S.Looks T R a b)
    (hx : x.kind = .enum → ∀ m, S.down a (.named m) = T.down b (.named m)) (n : Nat) :
    S.patch E n x a = T.patch E n x b :=
  SrcImpl.patch_same h E n x a b hab hx

/-- So what is proved about patching with derived and built-in values holds for a hand-written patch that
looks like one, although it has another type. -/
theorem C100_hand_written {A : Type} (S : SrcImpl A) (E : Env) (R : A → Obj → Prop)
    (h : S.Alike (Obj.src E) R) (x : Obj) (a : A) (o : Obj) (hao : S.Looks (Obj.src E) R a o)
    (hx : x.kind = .enum → ∀ m, S.down a (.named m) = (Obj.src E).down o (.named m)) :
    (∃ n, S.patch E n x a = some (patch E x o)) ∧
      ∀ n y, S.patch E n x a = some y → y = patch E x o := by
  obtain ⟨n, hn⟩ := C100_derived E x o
  have hn' : S.patch E n x a = some (patch E x o) :=
    (C100_alike S _ R h E x a o hao hx n).trans (hn n (Nat.le_refl _))
  exact ⟨⟨n, hn'⟩, fun m y hy => C100_one_answer S E x a m n y _ hy hn'⟩

/-- A struct, derived or dynamic, is patched with anything that shows itself as a struct: every field that
is not skipped is patched with the field of its name if there is one, and all else stays. Nothing else
about the patch matters: not its own type, its other fields, their order, or the number it announces. -/
theorem C100_struct_iff {A : Type} (S : SrcImpl A) (E : Env) (tag : STag) (fs : List (String × Obj))
    (a : A) (len : Nat) (field : String → Option A) (fieldAt : Nat → Option A)
    (nameAt : Nat → Option String) (hv : S.view a = .struct len field fieldAt nameAt) (y : Obj) :
    (∃ n, S.patch E n (.struct tag fs) a = some y) ↔
      ∃ gs, y = .struct tag gs ∧
        List.Forall₂ (fun p q => q.1 = p.1 ∧
          ((p.2.isHidden = true ∨ field p.1 = none) ∧ q.2 = p.2 ∨
            p.2.isHidden = false ∧ ∃ w, field p.1 = some w ∧
              ∃ n, S.patch E n p.2 w = some q.2)) fs gs := by
  constructor
  · rintro ⟨n, h⟩
    cases n with
    | zero => cases h
    | succ n =>
      simp only [SrcImpl.patch, hv] at h
      obtain ⟨gs, hgs, rfl⟩ := Option.map_eq_some_iff.mp h
      refine ⟨gs, rfl, ?_⟩
      have := List.forall₂_map_left_iff.mp ((optAll_some_iff₂ _ _).mp hgs)
      refine this.imp fun p q hq => ?_
      split at hq
      · next hh => cases hq; exact ⟨rfl, .inl ⟨.inl hh, rfl⟩⟩
      · next hh =>
        split at hq
        · next hf => cases hq; exact ⟨rfl, .inl ⟨.inr hf, rfl⟩⟩
        · next w hf =>
          obtain ⟨z, hz, rfl⟩ := Option.map_eq_some_iff.mp hq
          exact ⟨rfl, .inr ⟨by simpa using hh, w, hf, n, hz⟩⟩
  · rintro ⟨gs, rfl, h⟩
    obtain ⟨n, hn⟩ := forall₂_bound (Q := fun (p q : String × Obj) n => q.1 = p.1 ∧
          ((p.2.isHidden = true ∨ field p.1 = none) ∧ q.2 = p.2 ∨
            p.2.isHidden = false ∧ ∃ w, field p.1 = some w ∧ S.patch E n p.2 w = some q.2))
      (fun p q n n' hnn hq => ⟨hq.1, hq.2.imp id fun ⟨h, w, hw, hp⟩ =>
        ⟨h, w, hw, S.patch_mono E n n' hnn _ _ _ hp⟩⟩)
      (h.imp fun p q hq => by
        obtain ⟨h1, h2 | ⟨h2, w, hw, n, hn⟩⟩ := hq
        · exact ⟨0, h1, .inl h2⟩
        · exact ⟨n, h1, .inr ⟨h2, w, hw, hn⟩⟩)
    refine ⟨n + 1, ?_⟩
    simp only [SrcImpl.patch, hv]
    have : patchNamedA (S.patch E n) field fs = some gs := by
      refine (optAll_some_iff₂ _ _).mpr (List.forall₂_map_left_iff.mpr (hn.imp fun p q hq => ?_))
      obtain ⟨q1, q2⟩ := q
      obtain ⟨h1, ⟨h2 | h2, h3⟩ | ⟨h2, w, hw, hp⟩⟩ := hq
      · cases h1; cases h3; rw [if_pos h2]
      · cases h1; cases h3
        split
        · rfl
        · rw [h2]
      · cases h1
        rw [if_neg (by simp [h2]), hw]
        dsimp only
        rw [hp]
        rfl
    rw [this]
    rfl

/-- A `Vec` is patched with anything that shows itself as a list: with `k` the first position at which the
patch has no element, the elements before `k` are patched with those of the patch and the others stay. The
length never changes, and the one the patch announces is not consulted. -/
theorem C100_vec_iff {A : Type} (S : SrcImpl A) (E : Env) (t : Ty) (xs : List Obj) (a : A) (len : Nat)
    (get : Nat → Option A) (hv : S.view a = .list len get) (y : Obj) :
    (∃ n, S.patch E n (.vec t xs) a = some y) ↔
      ∃ k ys, y = .vec t ys ∧ get k = none ∧ (∀ j, j < k → get j ≠ none) ∧ ys.length = xs.length ∧
        ∀ (j : Nat) x z, xs[j]? = some x → ys[j]? = some z →
          if j < k then ∃ w, get j = some w ∧ ∃ n, S.patch E n x w = some z else z = x := by
  constructor
  · rintro ⟨n, h⟩
    cases n with
    | zero => cases h
    | succ n =>
      simp only [SrcImpl.patch, hv] at h
      obtain ⟨ys, hys, rfl⟩ := Option.map_eq_some_iff.mp h
      obtain ⟨k, _, h2, h3, h4, h5⟩ := patchLoop_some _ _ _ _ hys
      refine ⟨k, ys, rfl, h2, fun j => h3 j (Nat.zero_le _), h4, fun j x z hx hz => ?_⟩
      have := h5 j x z hx hz
      unfold PatchedTo at this
      by_cases hj : j < k
      · rw [if_pos ⟨Nat.zero_le _, hj⟩] at this
        rw [if_pos hj]
        obtain ⟨w, hw, hp⟩ := this
        exact ⟨w, hw, n, hp⟩
      · rw [if_neg (fun h => hj h.2)] at this
        rwa [if_neg hj]
  · rintro ⟨k, ys, rfl, h2, h3, h4, h5⟩
    obtain ⟨n, hn⟩ := index_bound (Q := fun j x n => ∀ z, ys[j]? = some z →
        PatchedTo (S.patch E n) get 0 k j x z)
      (fun j x n n' hnn h z hz => by
        have := h z hz
        unfold PatchedTo at this ⊢
        split
        · next hc =>
          rw [if_pos hc] at this
          obtain ⟨w, hw, hp⟩ := this
          exact ⟨w, hw, S.patch_mono E n n' hnn _ _ _ hp⟩
        · next hc => rwa [if_neg hc] at this) xs
      (fun j x hx => by
        obtain ⟨z, hz⟩ := align_pos h4.symm hx
        have := h5 j x z hx hz
        by_cases hj : j < k
        · rw [if_pos hj] at this
          obtain ⟨w, hw, n, hn⟩ := this
          refine ⟨n, fun z' hz' => ?_⟩
          rw [hz] at hz'; cases hz'
          rw [PatchedTo, if_pos ⟨Nat.zero_le _, hj⟩]
          exact ⟨w, hw, hn⟩
        · rw [if_neg hj] at this
          refine ⟨0, fun z' hz' => ?_⟩
          rw [hz] at hz'; cases hz'
          rw [PatchedTo, if_neg (fun h => hj h.2)]
          exact this)
    refine ⟨max n (k + 1) + 1, ?_⟩
    simp only [SrcImpl.patch, hv]
    have : patchLoop (S.patch E n) get (k + 1) 0 xs = some ys :=
      patchLoop_of h2 k 0 (Nat.zero_add _) (fun j _ => h3 j) xs ys h4
        fun j x z hx hz => hn j x hx z hz
    rw [patchLoop_mono (pat' := S.patch E (max n (k + 1)))
      (fun x a => S.patch_mono E n _ (Nat.le_max_left _ _) x a) get (k + 1) _ 0 xs
      (Nat.le_max_right _ _) _ this]
    rfl

/-- A patch that shows itself as another kind of thing changes nothing, unless a scalar or an enum is
patched. -/
theorem C100_mismatch {A : Type} (S : SrcImpl A) (E : Env) (x : Obj) (a : A)
    (hs : x.kind ≠ .scalar) (he : x.kind ≠ .enum) (hk : (S.view a).kind ≠ x.kind) (n : Nat) :
    S.patch E (n + 1) x a = some x := by
  cases x <;> simp only [Obj.kind, ne_eq, not_true_eq_false] at hs he <;> simp only [SrcImpl.patch] <;>
    cases hv : S.view a <;> rw [hv] at hk <;> first | rfl | exact absurd rfl hk

/-- A derived enum that may be cloned is replaced by a patch of its own type; by a patch of another type
that shows itself as an enum it is replaced with what the conversion gives, if it gives something. -/
theorem C100_enum {A : Type} (S : SrcImpl A) (E : Env) (m : String) (vds : List VariantDef)
    (hd : E.decl m = some ⟨.enum vds, false⟩) (x : Obj) (hx : x.kind = .enum)
    (ht : x.typeOf = some (.named m)) (a : A) :
    (∀ o, S.any a = some o → o.isTy (.named m) = true → ∀ n, S.patch E (n + 1) x a = some o) ∧
      (S.any a = none → (S.view a).kind = .enum → ∀ n y, S.from E n (.named m) a = some (some y) →
        S.patch E (n + 1) x a = some y) := by
  have hc : (E.decl m).any (·.cloneOptOut) = false := by rw [hd]; rfl
  constructor
  · intro o ho hty n
    rw [S.patch_derived E n hx ht]
    simp only [SrcImpl.patchDerived, hc, SrcImpl.down, ho, hty, Bool.false_eq_true, if_false, if_true]
  · intro ha hk n y hy
    rw [S.patch_derived E n hx ht]
    simp only [SrcImpl.patchDerived, hc, SrcImpl.down, ha, Bool.false_eq_true, if_false]
    unfold SrcImpl.patchRest
    cases hv : S.view a <;> rw [hv] at hk <;> try cases hk
    simp only [hy]

/-- With a list that always has another element no `Vec` is ever patched, however short it is: the loop
goes over the elements of the patch. -/
theorem C100_endless {A : Type} (S : SrcImpl A) (E : Env) (t : Ty) (xs : List Obj) (a : A) (len : Nat)
    (get : Nat → Option A) (hv : S.view a = .list len get) (h : ∀ i, get i ≠ none) (n : Nat) :
    S.patch E n (.vec t xs) a = none := by
  cases n with
  | zero => rfl
  | succ n =>
    simp only [SrcImpl.patch, hv]
    rw [patchLoop_endless h]
    rfl

/-! ## Cases that meet the hypotheses -/

/-- A derived struct is patched with a hand-written one: its skipped field and the field the patch does
not have stay. -/
example : ∃ n, (Hand.src flipEnv).patch flipEnv n
    (.struct (.derived "Flip") [("y", i32Obj 7), ("cache", .hidden 5), ("x", .nonzero .i32 3),
      ("z", i32Obj 9)]) (.point 1 2) =
    some (.struct (.derived "Flip") [("y", i32Obj 2), ("cache", .hidden 5), ("x", .nonzero .i32 1),
      ("z", i32Obj 9)]) := by
  refine ⟨3, ?_⟩
  cbv

/-- The same through the derived struct it looks like; `0` is no `NonZeroI32`, so `x` stays. -/
example : ∃ n, (Hand.src flipEnv).patch flipEnv n
    (.struct (.derived "Flip") [("y", i32Obj 7), ("cache", .hidden 5), ("x", .nonzero .i32 3)])
      (.point 0 2) =
    some (.struct (.derived "Flip") [("y", i32Obj 2), ("cache", .hidden 5), ("x", .nonzero .i32 3)]) := by
  obtain ⟨n, hn⟩ := (C100_hand_written (Hand.src flipEnv) flipEnv _ (Hand.src_alike flipEnv)
    (.struct (.derived "Flip") [("y", i32Obj 7), ("cache", .hidden 5), ("x", .nonzero .i32 3)])
    (.point 0 2) _ (Hand.point_looks flipEnv 0 2) (fun h => by cases h)).1
  refine ⟨n, hn.trans ?_⟩
  cbv

/-- Two elements are patched although the patch says it has none; the third stays. -/
example : ∃ n, Fixed.src.patch fixedEnv n
    (.vec (.scalar (.int .i32)) [i32Obj 7, i32Obj 8, i32Obj 9]) (.quiet 1 2) =
    some (.vec (.scalar (.int .i32)) [i32Obj 1, i32Obj 2, i32Obj 9]) := by
  refine ⟨5, ?_⟩
  cbv

/-- Unlike `from_reflect`, `patch` does take a hand-written array for an array. -/
example : ∃ n, Fixed.src.patch fixedEnv n
    (.struct (.derived "Holder") [("xs", .array (.scalar (.int .i32)) [i32Obj 7, i32Obj 8])])
      (.around 1 2) =
    some (.struct (.derived "Holder") [("xs", .array (.scalar (.int .i32)) [i32Obj 1, i32Obj 2])]) := by
  refine ⟨7, ?_⟩
  cbv

/-- An array is no list. -/
example (n : Nat) : Fixed.src.patch fixedEnv (n + 1) (.vec (.scalar (.int .i32)) [i32Obj 7]) (.pair 1 2) =
    some (.vec (.scalar (.int .i32)) [i32Obj 7]) :=
  C100_mismatch Fixed.src fixedEnv _ _ (by simp [Obj.kind]) (by simp [Obj.kind])
    (by simp [Fixed.src, Fixed.view, RefView.kind, Obj.kind]) n

/-- An empty `Vec` is never done with a list without an end. -/
example (n : Nat) : Fixed.src.patch fixedEnv n (.vec (.scalar (.int .i32)) []) .every = none :=
  C100_endless Fixed.src fixedEnv _ [] .every 0 _ rfl (fun i => nofun) n

/-- A derived enum with a skipped field. -/
def switchEnv : Env :=
  ⟨fun n => if n = "Switch" then
      some ⟨.enum [.struct "On" [⟨"level", .scalar (.int .i32), false⟩, ⟨"cache", .scalar .string, true⟩]],
        false⟩
    else none, fun _ _ _ => .eq⟩

/-- A `Switch` patched with another takes its skipped field as well. -/
example (n : Nat) : (Obj.src switchEnv).patch switchEnv (n + 1)
    (.enumS (.derived "Switch") "On" [("level", i32Obj 1), ("cache", .hidden 4)])
    (.enumS (.derived "Switch") "On" [("level", i32Obj 2), ("cache", .hidden 6)]) =
      some (.enumS (.derived "Switch") "On" [("level", i32Obj 2), ("cache", .hidden 6)]) :=
  (C100_enum (Obj.src switchEnv) switchEnv "Switch" _ rfl _ rfl rfl _).1 _ rfl (by cbv) n

/-- Patched with something that only looks like it, with a level that can be read by its downcast, it loses
its skipped field. -/
example : ∃ n, ({ Obj.src switchEnv with
      any := fun o => if o.kind = .scalar then some o else none } : SrcImpl Obj).patch switchEnv n
    (.enumS (.derived "Switch") "On" [("level", i32Obj 1), ("cache", .hidden 4)])
    (.enumS (.derived "Switch") "On" [("level", i32Obj 2), ("cache", .hidden 6)]) =
      some (.enumS (.derived "Switch") "On" [("level", i32Obj 2), ("cache", .hidden 0)]) := by
  refine ⟨4, ?_⟩
  exact (C100_enum _ switchEnv "Switch" _ rfl _ rfl rfl _).2 rfl rfl 3 _ (by cbv)

end Mirror
