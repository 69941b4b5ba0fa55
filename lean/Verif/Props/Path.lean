import Verif.Lemmas.Path
import Verif.Lemmas.Demo
import Verif.Spec.Iter

set_option linter.unusedSimpArgs false

/-!
# C27, C28, C30, C31, C32: key paths
-/

namespace Mirror

/-! ## C27 -/

/-- C27: the empty path is the value itself; following `p ++ q` is following `p` and then `q`. -/
theorem C27_paths_compose (E : Env) (x : Obj) (p q : KeyPath) :
    atPath E x [] = some x ∧
    atPath E x (p ++ q) = (atPath E x p).bind fun y => atPath E y q :=
  ⟨rfl, atPath_append E x p q⟩

/-- C27: if a path leads somewhere, so does each of its prefixes. -/
theorem C27_prefixes_reachable (E : Env) (x : Obj) (p q : KeyPath) (h : p <+: q)
    (hq : (atPath E x q).isSome) : (atPath E x p).isSome := by
  obtain ⟨r, rfl⟩ := h
  rw [atPath_append] at hq
  cases hp : atPath E x p with
  | none => rw [hp] at hq; cases hq
  | some y => rfl

/-- The path `.kids[0].val` exists in the demo tree, and so do its prefixes. -/
example : atPath demoEnv demoTree [.named "kids", .get (.scalar (.int .u8 0)), .named "val"] =
    some (.nonzero .u8 9) := by
  simp [atPath_cons, atPath_nil, demoTree, Obj.atKey, Obj.kind, Obj.field, visFields, Obj.isHidden,
    lookup, valueToUsize, usizeSize, Obj.fieldAt]

/-! ## C28 -/

/-- C28: `at_mut(p)` succeeds exactly when `at(p)` does, and points to the same part. -/
theorem C28_at_mut_agrees (E : Env) (x : Obj) (p : KeyPath) :
    (atMutPath E x p).map (·.get) = atPath E x p :=
  atMutPath_get E x p

/-- C28: after overwriting the part `at_mut(p)` points to by `y`, `at(p)` is `y`. If `p` ends with a
`::Variant` key, `y` must be of that variant (otherwise the path no longer exists). -/
theorem C28_write_then_read (E : Env) (hO : OrdLaws E) (T : Ty) (x y : Obj) (p : KeyPath) (pl : Place)
    (hx : HasTy E T x) (hp : KeyPath.WF p) (h : atMutPath E x p = some pl) (hy : ∃ U, HasTy E U y)
    (hv : ∀ v, p.getLast? = some (.variant v) → y.variantName = some v) :
    atPath E (pl.put y) p = some y :=
  put_get hO (by obtain ⟨U, hU⟩ := hy; exact hU.not_hidden) hp ⟨T, hx⟩ h hv

/-- C28: overwriting the part at `p` changes nothing that is reached by a path `q` diverging from
`p`, including whether `q` exists. -/
theorem C28_rest_unchanged (E : Env) (hO : OrdLaws E) (T : Ty) (x y : Obj) (p q : KeyPath) (pl : Place)
    (hx : HasTy E T x) (hp : KeyPath.WF p) (hq : KeyPath.WF q) (h : atMutPath E x p = some pl)
    (hy : ∃ U, HasTy E U y) (hd : Diverge E x p q) :
    atPath E (pl.put y) q = atPath E x q :=
  frame hO (by obtain ⟨U, hU⟩ := hy; exact hU.not_hidden) hd hp hq ⟨T, hx⟩ h

/-- C28: writing back what is there changes nothing. -/
theorem C28_write_back (E : Env) (x : Obj) (p : KeyPath) (pl : Place)
    (h : atMutPath E x p = some pl) : pl.put pl.get = x :=
  put_self h

/-- C28: a write of the same Rust type keeps the
whole a proper value of its type. -/
theorem C28_write_keeps_type (E : Env) (hO : OrdLaws E) (T U : Ty) (x y : Obj) (p : KeyPath)
    (pl : Place) (hx : HasTy E T x) (h : atMutPath E x p = some pl) (hU : pl.get.typeOf = some U)
    (hy : HasTy E U y) : HasTy E T (pl.put y) :=
  atMutPath_typed hO h (fun _ hS => hS.retype hO hU hy) T hx

/-- In the demo tree `.kids[0].val` and `.names["a"]` diverge, and so do `.names["a"]` and
`.names["b"]`; writing to `.names["a"]` is possible. -/
example : Diverge demoEnv demoTree [.named "kids", .get (.scalar (.int .u8 0)), .named "val"]
      [.named "names", .get (.scalar (.string "a"))] ∧
    Diverge demoEnv demoTree [.named "names", .get (.scalar (.string "a"))]
      [.named "names", .get (.scalar (.string "b"))] ∧
    ∃ pl, atMutPath demoEnv demoTree [.named "names", .get (.scalar (.string "a"))] = some pl ∧
      pl.get = .scalar (.int .u8 1) := by
  refine ⟨.here _ _ _ _ _ (.named _ _ _ (by decide)), ?_, ?_⟩
  · refine .deeper _ _ _ _ _ _ (.refl _ _ (by decide)) (by
      simp [demoTree, Obj.atKey, Obj.kind, Obj.field, visFields, Obj.isHidden, lookup]; exact ⟨rfl, rfl, rfl⟩)
      (.here _ _ _ _ _ (.entry _ _ _ _ _ ?_))
    intro a b ha hb
    simp [fromReflect, Value.toObj, Obj.isTy, Obj.typeOf, Scalar.kind] at ha hb
    subst ha hb
    simp [demoEnv, valueOrdEnv, Obj.toValue, Value.cmp]; decide
  · cases h : atMutPath demoEnv demoTree [.named "names", .get (.scalar (.string "a"))] with
    | some pl =>
      refine ⟨pl, rfl, ?_⟩
      have e := atMutPath_get demoEnv demoTree [.named "names", .get (.scalar (.string "a"))]
      rw [h] at e
      simp [atPath_cons, atPath_nil, demoTree, Obj.atKey, Obj.kind, Obj.field, visFields,
        Obj.isHidden, lookup, Obj.mapGet, fromReflect, Value.toObj, Obj.isTy, Obj.typeOf,
        Scalar.kind, bmGet, demoEnv, valueOrdEnv, Obj.toValue, Value.cmp_self] at e
      exact e
    | none =>
      exfalso
      have e := atMutPath_get demoEnv demoTree [.named "names", .get (.scalar (.string "a"))]
      rw [h] at e
      simp [atPath_cons, atPath_nil, demoTree, Obj.atKey, Obj.kind, Obj.field, visFields,
        Obj.isHidden, lookup, Obj.mapGet, fromReflect, Value.toObj, Obj.isTy, Obj.typeOf,
        Scalar.kind, bmGet, demoEnv, valueOrdEnv, Obj.toValue, Value.cmp_self] at e

/-! ## C30 -/

/-- C30, for keys of every integer type but `i128` and `u128`, on lists shorter than `2^63` (Rust
vectors of non-zero-sized elements are): a non-negative key selects that element, a negative or too
large one selects nothing. Missing: 128-bit keys, for which this is false (`C30_u128_wraps`). -/
theorem C30_index_keys_partial (E : Env) (t : Ty) (xs : List Obj) (k : IntKind) (n : Int)
    (hk : k ≠ .i128 ∧ k ≠ .u128) (hn : k.InRange n) (hl : xs.length ≤ 2 ^ 63) :
    atPath E (.vec t xs) [.get (.scalar (.int k n))] = (if 0 ≤ n then xs[n.toNat]? else none) ∧
    atPath E (.array t xs) [.get (.scalar (.int k n))] = (if 0 ≤ n then xs[n.toNat]? else none) := by
  have hr : -(2 ^ 63 : Int) ≤ n ∧ n < 2 ^ 64 := by
    cases k <;> simp [IntKind.InRange, IntKind.signed, IntKind.bits] at hn hk <;> omega
  have key : xs[(n % (usizeSize : Int)).toNat]? = if 0 ≤ n then xs[n.toNat]? else none := by
    have hu : (usizeSize : Int) = 18446744073709551616 := rfl
    rw [hu]
    split
    · next h0 => rw [Int.emod_eq_of_lt h0 (by omega)]
    · next h0 =>
      rw [List.getElem?_eq_none]
      omega
  simp only [atPath_cons, Obj.atKey, Obj.kind, valueToUsize, Option.bind_some, Obj.fieldAt, key]
  constructor <;> split <;> cases xs[n.toNat]? <;> rfl

example : IntKind.InRange .i32 (-1) ∧ IntKind.InRange .u8 3 ∧ ¬ IntKind.InRange .u8 256 := by decide

/-- C30 is false for 128-bit keys: adding `2^64` to an index, or subtracting `2^64` from it, selects
the same element, in every list. -/
theorem C30_u128_wraps (E : Env) (t : Ty) (xs : List Obj) (i : Nat) (hi : i < 2 ^ 64) :
    IntKind.InRange .u128 (i + 2 ^ 64) ∧ IntKind.InRange .i128 (i - 2 ^ 64) ∧
    atPath E (.vec t xs) [.get (.scalar (.int .u128 (i + 2 ^ 64)))] = xs[i]? ∧
    atPath E (.vec t xs) [.get (.scalar (.int .i128 (i - 2 ^ 64)))] = xs[i]? := by
  refine ⟨?_, ?_, ?_, ?_⟩
  · simp [IntKind.InRange, IntKind.signed, IntKind.bits]; omega
  · simp [IntKind.InRange, IntKind.signed, IntKind.bits]; omega
  all_goals
    simp only [atPath_cons, Obj.atKey, Obj.kind, valueToUsize, Option.bind_some, Obj.fieldAt]
    have hu : (usizeSize : Int) = 18446744073709551616 := rfl
    rw [hu]
  · have : (((i : Int) + 2 ^ 64) % 18446744073709551616).toNat = i := by omega
    rw [this]; cases xs[i]? <;> rfl
  · have : (((i : Int) - 2 ^ 64) % 18446744073709551616).toNat = i := by omega
    rw [this]; cases xs[i]? <;> rfl

/-! ## C31 -/

theorem breadcrumbs_after (p : KeyPath) (n : Nat) : ∀ i, 1 ≤ i →
    iterAfter Breadcrumbs.next n ⟨p, i⟩ = ⟨p, if i ≤ p.length then min (i + n) (p.length + 1) else i⟩ := by
  induction n with
  | zero =>
    intro i hi
    simp only [iterAfter]
    congr 1
    split <;> omega
  | succ n ih =>
    intro i hi
    simp only [iterAfter, Breadcrumbs.next, sliceTo]
    by_cases h : i ≤ p.length
    · simp only [h, if_true]
      rw [ih (i + 1) (by omega)]
      congr 1
      split <;> omega
    · simp only [h, if_false]
      rw [ih i hi]
      simp [h]

/-- C31: `breadcrumbs` yields `p[..1]`, `p[..2]`, ..., `p` and then `None` forever. -/
theorem C31_breadcrumbs (p : KeyPath) (n : Nat) :
    nthNext Breadcrumbs.next p.breadcrumbs n =
      if n < p.length then some (p.take (n + 1)) else none := by
  rw [nthNext, KeyPath.breadcrumbs, breadcrumbs_after p n 1 (by omega)]
  simp only [Breadcrumbs.next, sliceTo]
  by_cases h : n < p.length
  · have h1 : 1 ≤ p.length := by omega
    have h2 : min (1 + n) (p.length + 1) = n + 1 := by omega
    have h3 : n + 1 ≤ p.length := by omega
    simp [h1, h2, h3, h]
  · simp only [h, if_false]
    by_cases h1 : 1 ≤ p.length
    · have h2 : min (1 + n) (p.length + 1) = p.length + 1 := by omega
      have h3 : ¬ p.length + 1 ≤ p.length := by omega
      simp only [h1, if_true, h2, h3, if_false]
    · simp [h1]

/-- C31: every non-empty prefix is yielded, exactly once, and nothing else is. -/
theorem C31_breadcrumbs_are_prefixes (p q : KeyPath) :
    (∃ n, nthNext Breadcrumbs.next p.breadcrumbs n = some q) ↔ q ≠ [] ∧ q <+: p := by
  constructor
  · rintro ⟨n, h⟩
    rw [C31_breadcrumbs] at h
    split at h
    · next hn =>
      cases h
      refine ⟨?_, List.take_prefix _ _⟩
      intro he
      have := congrArg List.length he
      simp at this
      subst this
      simp at hn
    · cases h
  · rintro ⟨h0, r, rfl⟩
    refine ⟨q.length - 1, ?_⟩
    have : 0 < q.length := List.length_pos_of_ne_nil h0
    rw [C31_breadcrumbs, if_pos (by simp; omega)]
    have e : q.length - 1 + 1 = q.length := by omega
    rw [e]; simp

example : nthNext Breadcrumbs.next (KeyPath.breadcrumbs [.named "a", .numbered 0, .named "b"]) 1 =
    some [.named "a", .numbered 0] := rfl

/-! ## C32 -/

/-- C32: after any history of path operations the path lists the keys of the corresponding stack,
oldest first, and `len` counts them. -/
theorem C32_operations_are_a_stack (ops : List PathOp) :
    ops.foldl PathOp.run [] = (ops.foldl PathOp.stack []).reverse ∧
    KeyPath.len (ops.foldl PathOp.run []) = (ops.foldl PathOp.stack []).length ∧
    (KeyPath.isEmpty (ops.foldl PathOp.run []) = true ↔ ops.foldl PathOp.stack [] = []) := by
  have ext : ∀ (ks st : List Key), (ks.foldl (fun st k => k :: st) st).reverse = st.reverse ++ ks := by
    intro ks
    induction ks with
    | nil => simp
    | cons k ks ih => intro st; simp [ih]
  have step : ∀ (st : List Key) (op : PathOp),
      PathOp.run st.reverse op = (PathOp.stack st op).reverse := by
    intro st op
    cases op <;> simp [PathOp.run, PathOp.stack, KeyPath.field, KeyPath.fieldAt, KeyPath.getKey,
      KeyPath.variant, KeyPath.push, KeyPath.extend, ext, KeyPath.pop]
    cases st <;> simp
  have main : ∀ (ops : List PathOp) (st : List Key),
      ops.foldl PathOp.run st.reverse = (ops.foldl PathOp.stack st).reverse := by
    intro ops
    induction ops with
    | nil => intro st; rfl
    | cons op ops ih => intro st; rw [List.foldl_cons, List.foldl_cons, step, ih]
  have h := main ops []
  simp only [List.reverse_nil] at h
  refine ⟨h, ?_, ?_⟩
  · rw [h]; simp [KeyPath.len]
  · rw [h]; simp [KeyPath.isEmpty]

/-- C32: `key_path!` builds the keys in the order they are written. -/
theorem C32_macro (ts : List PathTok) : keyPathMacro [] ts = ts.map PathTok.key := by
  have : ∀ acc, keyPathMacro acc ts = acc ++ ts.map PathTok.key := by
    induction ts with
    | nil => simp [keyPathMacro]
    | cons t ts ih =>
      intro acc
      cases t <;> simp [keyPathMacro, ih, KeyPath.field, KeyPath.fieldAt, KeyPath.getKey,
        KeyPath.variant, KeyPath.push, PathTok.key]
  simpa using this []

/-- C32: printing a path prints its keys left to right. -/
theorem C32_display_in_order (dbg : Value → List Char) (p q : KeyPath) (k : Key) :
    KeyPath.display dbg (p ++ q) = KeyPath.display dbg p ++ KeyPath.display dbg q ∧
    KeyPath.display dbg (KeyPath.push p k) = KeyPath.display dbg p ++ k.display dbg :=
  ⟨display_append dbg p q, by simp [KeyPath.push, display_append, KeyPath.display]⟩

/-- C32: different paths of field and variant keys (with identifiers for names) print differently. -/
theorem C32_display_injective (dbg : Value → List Char) (p q : KeyPath) (hp : ∀ k ∈ p, k.Plain)
    (hq : ∀ k ∈ q, k.Plain) (h : KeyPath.display dbg p = KeyPath.display dbg q) : p = q :=
  display_inj hp hq h

example : (Key.named "kids").Plain ∧ (Key.variant "Some").Plain ∧ (Key.numbered 10).Plain := by
  refine ⟨⟨by decide, ?_⟩, ⟨by decide, ?_⟩, trivial⟩
  · intro c r h
    have : ['k', 'i', 'd', 's'] = c :: r := h
    cases this; decide
  · intro c r h
    have : ['S', 'o', 'm', 'e'] = c :: r := h
    cases this; decide

/-- The restriction to identifiers is needed: a field called `0` prints like the position `0`. -/
theorem C32_display_clash (dbg : Value → List Char) :
    KeyPath.display dbg [.named "0"] = KeyPath.display dbg [.numbered 0] ∧
    (Key.named "0") ≠ .numbered 0 :=
  ⟨by simp [KeyPath.display, Key.display, Nat.toDigits_zero], by simp⟩

end Mirror
