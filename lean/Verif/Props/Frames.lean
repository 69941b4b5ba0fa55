import Verif.Props.Patch
import Verif.Props.Path

set_option linter.unusedSimpArgs false

/-!
# C13 for enums and C30, exactly

`patch E x v` is the content of `x` after `x.patch(&v)`; `atPath E x p` is `x.at(p)`.
-/

namespace Mirror

/-! ## C13 -/

/-- C13 for `EnumValue`: a patch in the same variant changes only the fields it carries, by name or by
position. -/
theorem C13_patch_enum_value_frame {E : Env} {x v : Obj} (hk : x.kind = .enum)
    (ht : x.typeOf = some .enumValue) :
    (∀ tag vn fs, x = .enumS tag vn fs → v.variantName = some vn →
      ∃ gs, patch E x v = .enumS tag vn gs ∧ gs.map (·.1) = fs.map (·.1) ∧
        ∀ (i : Nat) m a, fs[i]? = some (m, a) →
          (∀ w, v.field m = some w → gs[i]? = some (m, patch E a w)) ∧
          (v.field m = none → gs[i]? = some (m, a))) ∧
    (∀ tag vn fs, x = .enumT tag vn fs → v.variantName = some vn →
      ∃ gs, patch E x v = .enumT tag vn gs ∧ Patched E fs v.fieldAt gs) := by
  have base := patch_enum_dyn E hk ht v
  refine ⟨?_, ?_⟩
  · rintro tag vn fs rfl hvn
    have hvk : v.kind = .enum := by cases v <;> simp [Obj.variantName] at hvn <;> rfl
    rw [if_pos hvk] at base
    refine ⟨patchNamed E v fs, by rw [base]; exact if_pos hvn,
      by simp [patchNamed, Function.comp_def],
      fun i m a ha => ⟨fun w hw => ?_, fun hw => ?_⟩⟩ <;> simp [patchNamed, ha, hw, patchO]
  · rintro tag vn fs rfl hvn
    have hvk : v.kind = .enum := by cases v <;> simp [Obj.variantName] at hvn <;> rfl
    rw [if_pos hvk] at base
    exact ⟨patchPos E v fs, by rw [base]; exact if_pos hvn, patchPos_patched E v fs⟩

/-- C13 fails for every enum patched with an enum value that converts to its type: the result does not
depend on what was there before, in any field, skipped or not. Together with
`C13_patch_enum_frame_partial` and `C08_other_kind_no_effect` this says what patching an enum does with every
patch. -/
theorem C13_enum_replaced {E : Env} {n : String} {vds : List VariantDef} {c : Bool}
    (hd : E.decl n = some ⟨.enum vds, c⟩) {x x' v y : Obj} (hx : HasTy E (.named n) x)
    (hx' : HasTy E (.named n) x') (hv : v.kind = .enum) (hy : fromReflect E (.named n) v = some y) :
    patch E x v = patch E x' v := by
  have hk : ∀ {z}, HasTy E (.named n) z → z.kind = .enum ∧ z.typeOf = some (.named n) := by
    intro z hz
    cases hz <;> simp_all [Obj.kind, Obj.typeOf]
  rw [patch_enum_derived E (hk hx).1 (hk hx).2, patch_enum_derived E (hk hx').1 (hk hx').2, if_pos hv,
    if_pos hv, hy]

/-- The environment of `enum Bag { B(BTreeMap<String, u8>) }`. -/
def bagEnv : Env := valueOrdEnv fun n =>
  if n = "Bag" then
    some ⟨.enum [.tuple "B" [⟨"", .map (.scalar .string) (.scalar (.int .u8)), false⟩]], false⟩
  else none

/-- `Bag::B` of a map from strings to numbers. -/
def bag (kvs : List (String × Int)) : Obj :=
  .enumT (.derived "Bag") "B" [.map (.scalar .string) (.scalar (.int .u8))
    (kvs.map fun p => (.scalar (.string p.1), .scalar (.int .u8 p.2)))]

theorem bag_hasTy (s : String) (a : Int) : HasTy bagEnv (.named "Bag") (bag [(s, a)]) := by
  refine .enumT "Bag" _ false "B" _ _ rfl List.mem_cons_self rfl ?_ ?_
  · intro i fd p hfd hp hs
    match i with
    | 0 => simp at hfd; subst hfd; simp at hs
    | i + 1 => simp at hfd
  · intro i fd p hfd hp hs
    match i with
    | 0 =>
      simp at hfd hp; subst hfd hp
      refine .map _ _ _ (by simp [BMSorted]) ?_ ?_
      · intro p hp; simp at hp; subst hp; exact .scalar' rfl
      · intro p hp; simp at hp; subst hp; exact .scalar' rfl
    | i + 1 => simp at hfd

/-- C13 fails without skipped fields too: a map inside an enum is replaced, where a map that is patched
directly keeps its keys. -/
theorem C13_enum_map_replaced :
    patch bagEnv (bag [("a", 1)]) (bag [("b", 2)]) = bag [("b", 2)] ∧
    patch bagEnv (.map (.scalar .string) (.scalar (.int .u8)) [(.scalar (.string "a"), .scalar (.int .u8 1))])
      (.map (.scalar .string) (.scalar (.int .u8)) [(.scalar (.string "b"), .scalar (.int .u8 2))]) =
    .map (.scalar .string) (.scalar (.int .u8)) [(.scalar (.string "a"), .scalar (.int .u8 1))] := by
  constructor
  · rw [patch_enum_derived bagEnv rfl rfl]
    simp [bag, Obj.isTy, Obj.typeOf, bagEnv, valueOrdEnv]
  · rw [patch_map]
    simp [patchEntry, fromReflect, Obj.isTy, Obj.typeOf, Scalar.kind, bmModify, bagEnv, valueOrdEnv,
      Obj.toValue, Value.cmp]
    intro h
    exact absurd h (by decide)

/-- Non-vacuity of `C13_enum_replaced`: whatever `Sec::S` held, patching it with the `EnumValue` `U` gives
the same. -/
example (a b : Int) (d e : Nat) :
    patch patchEnv (secS a d) (.enumU .dyn "U") = patch patchEnv (secS b e) (.enumU .dyn "U") := by
  have hd : patchEnv.decl "Sec" = some ⟨.enum [.struct "S" [⟨"a", .scalar (.int .u8), false⟩,
    ⟨"h", .scalar .bool, true⟩], .unit "U"], false⟩ := rfl
  refine C13_enum_replaced hd (y := .enumU (.derived "Sec") "U") (sec_hasTy a d) (sec_hasTy b e) rfl ?_
  rw [fromReflect_enum hd]
  simp [Obj.variantName, VariantDef.name, List.find?]

/-! ## C30 -/

/-- C30, exactly: a key of any integer type selects the element at the key modulo `2^64`. -/
theorem C30_exact (E : Env) (t : Ty) (xs : List Obj) (k : IntKind) (n : Int) :
    atPath E (.vec t xs) [.get (.scalar (.int k n))] = xs[(n % 2 ^ 64).toNat]? ∧
    atPath E (.array t xs) [.get (.scalar (.int k n))] = xs[(n % 2 ^ 64).toNat]? := by
  have hu : (usizeSize : Int) = 2 ^ 64 := rfl
  simp only [atPath_cons, Obj.atKey, Obj.kind, valueToUsize, Option.bind_some, Obj.fieldAt, hu]
  constructor <;> cases xs[(n % 2 ^ 64).toNat]? <;> rfl

/-- C30 holds for a key and a list exactly when the key is not a number outside of `0 .. 2^64` that is
congruent to an index of the list. -/
theorem C30_iff (E : Env) (t : Ty) (xs : List Obj) (k : IntKind) (n : Int) (hl : xs.length < 2 ^ 64) :
    atPath E (.vec t xs) [.get (.scalar (.int k n))] = (if 0 ≤ n then xs[n.toNat]? else none) ↔
    ¬ ((n < 0 ∨ 2 ^ 64 ≤ n) ∧ (n % 2 ^ 64).toNat < xs.length) := by
  rw [(C30_exact E t xs k n).1]
  have hm : ∀ i : Nat, xs[i]? = none ↔ xs.length ≤ i := fun i => List.getElem?_eq_none_iff
  by_cases h0 : 0 ≤ n
  · rw [if_pos h0]
    by_cases h1 : n < 2 ^ 64
    · rw [Int.emod_eq_of_lt h0 h1]; simp; omega
    · have : xs[n.toNat]? = none := (hm _).mpr (by omega)
      rw [this, hm]; omega
  · rw [if_neg h0, hm]; omega

/-- Non-vacuity of `C30_iff`: `-1 as i64` on a short list is fine, `2^64 as u128` is not. -/
example : (atPath demoEnv (.vec (.scalar .bool) [.scalar (.bool true)]) [.get (.scalar (.int .i64 (-1)))] = none) ∧
    atPath demoEnv (.vec (.scalar .bool) [.scalar (.bool true)]) [.get (.scalar (.int .u128 (2 ^ 64)))] =
      some (.scalar (.bool true)) := by
  refine ⟨?_, ?_⟩
  · have := (C30_iff demoEnv (.scalar .bool) [.scalar (.bool true)] .i64 (-1) (by simp)).mpr (by simp)
    rw [this]; simp
  · rw [(C30_exact _ _ _ _ _).1]; simp

end Mirror
