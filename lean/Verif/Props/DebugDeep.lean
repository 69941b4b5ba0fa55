import Verif.Lemmas.DebugDeep
import Verif.Lemmas.Demo
import Verif.Model.Path
import Verif.Props.Unseen

/-!
# C82: what `{:?}` of a reflected value shows
-/

set_option linter.unusedSimpArgs false

namespace Mirror

variable {E : Env} {D : Printing}

/-- C82. Printing a reflected value, or any view of it, never panics. -/
theorem C82_never_panics (hD : DeclsOK E) (hO : OrdLaws E) (D : Printing) {t : Ty} {o : Obj} (h : HasTy E t o) :
    (debugAs E D (some t) o).NoPanic ∧ (debugAs E D none o).NoPanic :=
  (HasTy.debug_noPanic hD hO D _ t o (Nat.lt_succ_self _) h).symm

/-- C82. Printing does not show what skipped fields hold, unless a type with its own `Debug` does. -/
theorem C82_skipped_unseen (hU : D.UserSkips) (E : Env) (m : Option Ty) {x y : Obj} (h : x.SeenAs y) :
    debugAs E D m x = debugAs E D m y := by
  have hU' : ∀ n x, D.optOut n = false → D.user n x.reset = D.user n x := fun n x hn =>
    hU n _ _ hn (Obj.seenAs_of_reset (reset_reset x))
  rw [← debugAs_reset hU' _ x m (Nat.lt_succ_self _), ← debugAs_reset hU' _ y m (Nat.lt_succ_self _), h.reset]

/-- C82 (only for types without tuples and dynamic types among their components, and values without skipped fields in
front of others): two values that print alike show the same content. For tuples it is false
(`C82_tuples_print_alike`), for `Value`s inside lists too (`C82_values_lose_types`), and behind a gap nothing
is printed (`C58_complete_iff`). -/
theorem C82_shows_everything_partial (hD : DeclsOK E) (hO : OrdLaws E) (hK : KeysShown E) (hT : D.TextFaithful)
    (hU : D.UserFaithful E) {t : Ty} (hS : Static E t) (hN : NoTuples E t) {x y : Obj} (hx : HasTy E t x)
    (hy : HasTy E t y) (gx : x.Everywhere Obj.GapFree) (gy : y.Everywhere Obj.GapFree)
    (h : debugAs E D (some t) x = debugAs E D (some t) y) : SameShown x y :=
  sameShown_of_rep ((debug_inj hD hO hK hT hU _ t x y (Nat.lt_succ_self _) hS hN hx hy gx gy).2 h)

/-- C82. `Value`s that print alike are equal, with the types of their numbers, whatever they contain. -/
theorem C82_value_shows_everything (hT : D.TextFaithful) (E : Env) {x y : Obj}
    (h : debugAs E D (some .value) x = debugAs E D (some .value) y) : SameShown x y := by
  rw [debugAs, debugAs] at h
  exact Value.beq_iff_canon.mpr (Value.debug_inj hT _ _ h)

/-- C82, why there is no more: tuples of one type print alike, whatever they contain. -/
theorem C82_tuples_print_alike (E : Env) (D : Printing) (ts : List Ty) (x y : Obj) :
    debugAs E D (some (.tuple ts)) x = debugAs E D (some (.tuple ts)) y := by
  rw [debugAs, debugAs]

/-- C82. A list of tuples shows nothing but its length. -/
theorem C82_lists_of_tuples_print_alike (E : Env) (D : Printing) (ts : List Ty) {xs ys : List Obj}
    (h : xs.length = ys.length) : debugAs E D (some (.vec (.tuple ts))) (.vec (.tuple ts) xs) =
      debugAs E D (some (.vec (.tuple ts))) (.vec (.tuple ts) ys) := by
  rw [debugAs_pos (.inl ⟨_, rfl⟩), debugAs_pos (.inl ⟨_, rfl⟩)]
  congr 1
  apply List.ext_getElem?
  intro i
  simp only [List.getElem?_mapIdx, Obj.posIter, Obj.posRefTy, Obj.reflTy, dbgRef]
  cases ha : xs[i]? with
  | none =>
    have : ys[i]? = none := by rw [List.getElem?_eq_none_iff] at ha ⊢; omega
    rw [this]
  | some a =>
    obtain ⟨b, hb⟩ : ∃ b, ys[i]? = some b := align_pos h ha
    rw [hb]
    simp only [Option.map_some, C82_tuples_print_alike E D ts a b]

/-- C82. In a list, `Value`s are printed without their types: the same number as `u8` and as `i64` looks the same. -/
theorem C82_values_lose_types (E : Env) (D : Printing) (k k' : IntKind) (n : Int) (hk : k ≠ k') :
    debugAs E D (some (.vec .value)) (.vec .value [.scalar (.int k n)]) =
      debugAs E D (some (.vec .value)) (.vec .value [.scalar (.int k' n)]) ∧
    ¬ SameShown (.vec .value [.scalar (.int k n)]) (.vec .value [.scalar (.int k' n)]) := by
  refine ⟨?_, ?_⟩
  · rw [debugAs_pos (.inl ⟨_, rfl⟩), debugAs_pos (.inl ⟨_, rfl⟩)]
    simp only [Obj.posIter, Obj.posRefTy, Obj.reflTy, Obj.typeOf, Scalar.kind, List.mapIdx_cons, List.mapIdx_nil, dbgRef]
    rw [debugAs, debugAs]
    simp only [Obj.asScalar, Printing.scalar]
  · intro h
    have := Value.beq_iff_canon.mp h
    simp only [Obj.toValue, Value.canon, List.map_cons, List.map_nil, Scalar.canon, Value.list.injEq, List.cons.injEq,
      Value.scalar.injEq, Scalar.int.injEq, and_true] at this
    exact hk this

/-- How a key of a path prints: `as_reflect` of the `Value` (key_path.rs:409-411), laid out by `render`. -/
def keyDebug (E : Env) (D : Printing) (render : DTree → List Char) (v : Value) : List Char :=
  render (dbgRef E D (v.toObj.reflTy .value) v.toObj)

/-- C82. Paths that differ in the type of a number used as a key print alike. -/
theorem C82_paths_lose_types (E : Env) (D : Printing) (render : DTree → List Char) (k k' : IntKind) (n : Int)
    (p q : KeyPath) : KeyPath.display (keyDebug E D render) (p ++ Key.get (.scalar (.int k n)) :: q) =
      KeyPath.display (keyDebug E D render) (p ++ Key.get (.scalar (.int k' n)) :: q) := by
  induction p with
  | nil =>
    simp only [List.nil_append, KeyPath.display, Key.display, keyDebug, Value.toObj, Obj.reflTy, Obj.typeOf, Scalar.kind,
      dbgRef]
    rw [debugAs, debugAs]
    simp only [Obj.asScalar, Printing.scalar]
  | cons a p ih => simp only [List.cons_append, KeyPath.display, ih]

/-- C82. The own `Debug` of a type is not used inside a box: two programs whose `Debug`s differ only on the boxed value
itself (`f` agrees with `D.user` on everything smaller) print the box alike. -/
theorem C82_box_ignores_own_debug (E : Env) (D : Printing) (f : String → Obj → String) (t : Ty) (o : Obj)
    (hf : ∀ m x, sizeOf x < sizeOf o → f m x = D.user m x) :
    debugAs E { D with user := f } (some (.box t)) o = debugAs E D (some (.box t)) o := by
  rw [debugAs_box, debugAs_box]
  exact (debugAs_user _ o (Nat.lt_succ_self _) hf).1

/-! ## Examples -/

/-- Everything is declared with `opt_out(Debug)` except `Pair`, whose own `Debug` prints its first field. -/
def demoPrinting : Printing where
  optOut n := n != "Pair"
  user _ o :=
    match o with
    | .tupleStruct _ (.scalar (.int _ n) :: _) => toString n
    | _ => ""
  typeName _ := "type"
  char c := String.singleton c
  str s := s
  f32 b := toString (f32OrdKey b)
  f64 b := toString (f64OrdKey b)

theorem demoPrinting_text : demoPrinting.TextFaithful where
  char a b h := by
    have := congrArg String.toList h
    simpa [demoPrinting] using this
  str _ _ h := h
  f32 _ _ h := Int.repr_injective h
  f64 _ _ h := Int.repr_injective h

/-- `Pair(n, _)`. -/
def demoPair (n : Int) (d : Nat) : Obj := .tupleStruct (.derived "Pair") [.scalar (.int .i32 n), .hidden d]

theorem demoPair_inv {o : Obj} (h : HasTy demoEnv (.named "Pair") o) : ∃ n d, o = demoPair n d := by
  cases h with
  | struct _ _ _ _ hd => simp [demoEnv, valueOrdEnv, demoDecl] at hd
  | enumS _ _ _ _ _ _ hd => simp [demoEnv, valueOrdEnv, demoDecl] at hd
  | enumT _ _ _ _ _ _ hd => simp [demoEnv, valueOrdEnv, demoDecl] at hd
  | enumU _ _ _ _ hd => simp [demoEnv, valueOrdEnv, demoDecl] at hd
  | tupleStruct _ fds c fs hd hl h3 h4 =>
    simp [demoEnv, valueOrdEnv, demoDecl] at hd
    obtain ⟨rfl, rfl⟩ := hd
    match fs, hl with
    | [a, b], _ =>
      have ha := h4 0 _ a rfl rfl rfl
      have hb := h3 1 _ b rfl rfl rfl
      cases b <;> simp [Obj.isHidden] at hb
      generalize hT : Ty.scalar (.int .i32) = T at ha
      cases ha with
      | scalar s => cases s <;> simp [Scalar.kind] at hT; subst hT; exact ⟨_, _, rfl⟩
      | _ => simp at hT

theorem demoPrinting_user : demoPrinting.UserFaithful demoEnv := by
  intro n x y hn hx hy h
  have : n = "Pair" := by simpa [demoPrinting] using hn
  subst this
  obtain ⟨a, d, rfl⟩ := demoPair_inv hx
  obtain ⟨b, e, rfl⟩ := demoPair_inv hy
  have : a = b := Int.repr_injective h
  subst this
  simp [SameShown, demoPair, Obj.toValue, visPos, Obj.isHidden, Value.beq_iff_canon, Obj.hidden]

theorem demoPair_hasTy (n : Int) (d : Nat) : HasTy demoEnv (.named "Pair") (demoPair n d) := by
  refine .tupleStruct _ [⟨"", .scalar (.int .i32), false⟩, ⟨"", .scalar .bool, true⟩] false _ rfl rfl ?_ ?_
  · intro i fd x hfd hx hs
    match i with
    | 0 => simp at hfd; subst hfd; cases hs
    | 1 => simp at hx; subst hx; rfl
    | i + 2 => simp at hx
  · intro i fd x hfd hx hs
    match i with
    | 0 => simp at hfd hx; subst hfd; subst hx; exact .scalar (.int .i32 n)
    | 1 => simp at hfd; subst hfd; cases hs
    | i + 2 => simp at hx

theorem demoPair_gapFree (n : Int) (d : Nat) : (demoPair n d).Everywhere Obj.GapFree := by
  refine .mk _ ?_ ?_
  · intro i j hij x hx hh
    match j with
    | 0 => omega
    | 1 => simp at hx; subst hx; cases hh
    | j + 2 => simp at hx
  · intro x hx
    simp [demoPair, Obj.parts, visPos, Obj.isHidden] at hx
    subst hx
    exact .mk _ trivial (by simp [Obj.parts])

/-- The component types of a list of `Pair`s. -/
theorem pairs_reach : ∀ u, (Ty.vec (.named "Pair")).Reach demoEnv u →
    u ∈ [Ty.vec (.named "Pair"), .named "Pair", .scalar (.int .i32)] := by
  intro u hu
  induction hu with
  | refl => decide
  | step u v _ hv ih =>
    have : ∀ u ∈ [Ty.vec (.named "Pair"), .named "Pair", .scalar (.int .i32)], ∀ v ∈ u.comps demoEnv,
        v ∈ [Ty.vec (.named "Pair"), .named "Pair", .scalar (.int .i32)] := by decide
    exact this u ih v hv

/-- `vec![Pair(1, _), Pair(2, _)]` and `vec![Pair(1, _), Pair(3, _)]` print differently; the hypotheses are met. -/
example : debugAs demoEnv demoPrinting (some (.vec (.named "Pair"))) (.vec (.named "Pair") [demoPair 1 0, demoPair 2 0]) ≠
    debugAs demoEnv demoPrinting (some (.vec (.named "Pair"))) (.vec (.named "Pair") [demoPair 1 0, demoPair 3 0]) := by
  have ty : ∀ a b, HasTy demoEnv (.vec (.named "Pair")) (.vec (.named "Pair") [demoPair a 0, demoPair b 0]) := fun a b =>
    .vec _ _ (by simp [demoPair_hasTy])
  have gap : ∀ a b, (Obj.vec (.named "Pair") [demoPair a 0, demoPair b 0]).Everywhere Obj.GapFree := fun a b =>
    .mk _ trivial (by simp [Obj.parts, demoPair_gapFree])
  intro h
  have := C82_shows_everything_partial demo_declsOK demo_ordLaws demo_keysShown demoPrinting_text demoPrinting_user
    (fun u hu => by
      have := pairs_reach u hu
      simp only [List.mem_cons, List.not_mem_nil, or_false] at this
      rcases this with rfl | rfl | rfl <;> simp)
    (fun u hu ts => by
      have := pairs_reach u hu
      simp only [List.mem_cons, List.not_mem_nil, or_false] at this
      rcases this with rfl | rfl | rfl <;> simp)
    (ty 1 2) (ty 1 3) (gap 1 2) (gap 1 3) h
  have := Value.beq_iff_canon.mp this
  simp [Obj.toValue, demoPair, visPos, Obj.isHidden, Value.canon, Scalar.canon] at this

/-- A `Secret` prints alike whatever its skipped field holds, and without panic. -/
example : (debugAs demoEnv demoPrinting (some (.named "Secret")) demoSecret).NoPanic ∧
    ∀ d, debugAs demoEnv demoPrinting (some (.named "Secret")) demoSecret =
      debugAs demoEnv demoPrinting (some (.named "Secret")) (.struct (.derived "Secret")
        [("a", .scalar (.int .u8 7)), ("hidden", .hidden d),
          ("b", .vec (.scalar (.int .u8)) [.scalar (.int .u8 1), .scalar (.int .u8 2)])]) := by
  refine ⟨(C82_never_panics demo_declsOK demo_ordLaws demoPrinting demoSecret_hasTy).1, fun d => ?_⟩
  refine C82_skipped_unseen ?_ _ _ (Obj.seenAs_of_reset (by simp [demoSecret, Obj.reset]))
  intro n x y hn h
  have e := h.reset
  have user : ∀ o : Obj, demoPrinting.user n o.reset = demoPrinting.user n o := by
    intro o
    cases o with
    | tupleStruct tag fs =>
      cases fs with
      | nil => simp [demoPrinting, Obj.reset]
      | cons a r =>
        cases a with
        | scalar s => cases s <;> simp [demoPrinting, Obj.reset]
        | _ => simp [demoPrinting, Obj.reset]
    | _ => simp [demoPrinting, Obj.reset]
  rw [← user x, ← user y, e]

/-- Tuples with different contents exist: `(1, true)` and `(2, false)` print alike. -/
example : debugAs demoEnv demoPrinting (some (.tuple [.scalar (.int .u8), .scalar .bool]))
      (.tuple (.typed [.scalar (.int .u8), .scalar .bool]) [.scalar (.int .u8 1), .scalar (.bool true)]) =
    debugAs demoEnv demoPrinting (some (.tuple [.scalar (.int .u8), .scalar .bool]))
      (.tuple (.typed [.scalar (.int .u8), .scalar .bool]) [.scalar (.int .u8 2), .scalar (.bool false)]) :=
  C82_tuples_print_alike _ _ _ _ _

/-- A boxed `Pair` is printed as a tuple struct with its field, not by its own `Debug`. -/
example : debugAs demoEnv demoPrinting (some (.named "Pair")) (demoPair 4 0) = .text "4" ∧
    debugAs demoEnv demoPrinting (some (.box (.named "Pair"))) (demoPair 4 0) = .tuple "type" [.text "4"] := by
  refine ⟨by rw [debugAs_named]; rfl, ?_⟩
  rw [debugAs_box, debugAs_none]
  simp [demoPair, dbgCalls, dbgLayer, Obj.posIter, Obj.isHidden, Obj.posRefTy, Env.tupleFieldTy, demoEnv, valueOrdEnv, demoDecl,
    Obj.reflTy, dbgRef, Printing.nameOf, Obj.typeOf, demoPrinting]
  rw [debugAs]
  rfl

end Mirror
