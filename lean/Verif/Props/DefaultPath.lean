import Verif.Lemmas.DefaultPath
import Verif.Lemmas.Demo

set_option linter.unusedSimpArgs false

/-!
# Defaults and paths (C76)

`d.graph` and `d.root` are those of any descriptor, built here or received. `TypeAt.defaultValue g fuel T` is
`T.default_value()` of a type or variant `T` found by `type_at`. It is `some r` if the call returns `r`
within a call depth of `fuel`.
-/

namespace Mirror

variable {E : Env}

theorem typeAt_root {d : TypeDescriptor} {p : KeyPath} {T : TypeAt}
    (h : d.typeAt p = some (some T)) : ∃ ta, TypeAt.new d.graph d.root = some ta ∧
      ta.Own d.graph ∧ ta.typeAt d.graph p = some (some T) ∧
      ∀ fuel, ta.defaultValue d.graph fuel = defaultValue d.graph fuel d.root := by
  rw [TypeDescriptor.typeAt] at h
  cases hn : TypeAt.new d.graph d.root with
  | none => rw [hn] at h; cases h
  | some ta =>
    rw [hn] at h
    refine ⟨ta, rfl, TypeAt.new_own hn, h, fun fuel => ?_⟩
    obtain ⟨n, _, rfl⟩ := Option.map_eq_some_iff.mp hn
    rfl

/-- C76: whatever the default of a type has at a path of the type is the default of the type at that path. -/
theorem C76_default_of_part {d : TypeDescriptor} {fuel : Nat} {v : Value} {p : KeyPath} {T : TypeAt}
    {x : Obj} (hv : defaultValue d.graph fuel d.root = some (some v)) (hT : d.typeAt p = some (some T))
    (hx : atPath E v.toObj p = some x) :
    ∃ w, T.defaultValue d.graph fuel = some (some w) ∧ x = w.toObj := by
  obtain ⟨ta, _, ho, ht, hd⟩ := typeAt_root hT
  rcases default_path (E := E) p ho (by rw [hd]; exact hv) ht with ⟨_, w, h1, h2⟩ | ⟨_, h⟩
  · rw [h1] at hx; cases hx; exact ⟨w, h2, rfl⟩
  · rw [h] at hx; cases hx

/-- C76: the default has something at a path of the type exactly if the path goes into no list and no map,
stays inside arrays, and names only first variants. -/
theorem C76_reaches_iff {d : TypeDescriptor} {fuel : Nat} {v : Value} {p : KeyPath} {T : TypeAt}
    (hv : defaultValue d.graph fuel d.root = some (some v)) (hT : d.typeAt p = some (some T)) :
    (∃ x, atPath E v.toObj p = some x) ↔
      ∀ q k r S, p = q ++ k :: r → d.typeAt q = some (some S) → HoldsDefault S k := by
  obtain ⟨ta, hn, ho, ht, hd⟩ := typeAt_root hT
  have e : ∀ q, d.typeAt q = ta.typeAt d.graph q := fun q => by rw [TypeDescriptor.typeAt, hn]
  rcases default_path (E := E) p ho (by rw [hd]; exact hv) ht with ⟨h, w, h1, h2⟩ | ⟨⟨q, k, r, S, hp, hS, hn⟩, h⟩
  · exact ⟨fun _ q k r S hp hS => h q k r S hp (by rw [← e]; exact hS), fun _ => ⟨_, h1⟩⟩
  · exact ⟨fun ⟨x, hx⟩ => by (rw [h] at hx; cases hx), fun H => absurd (H q k r S hp (by rw [e]; exact hS)) hn⟩

/-- C76: every path into the default is a path of the type once the variants on the way are named, and the
part is the same. -/
theorem C76_every_part_has_a_type {d : TypeDescriptor} {fuel : Nat} {v : Value} {p : KeyPath} {x : Obj}
    (hv : defaultValue d.graph fuel d.root = some (some v)) (hx : atPath E v.toObj p = some x) :
    ∃ q T, Spelled p q ∧ d.typeAt q = some (some T) ∧ atPath E v.toObj q = some x := by
  obtain ⟨n, hn⟩ := defaultValue_node hv
  have hnew : TypeAt.new d.graph d.root = some (.ty d.root n) := by simp [TypeAt.new, hn]
  obtain ⟨q, T, h1, h2, h3⟩ := default_path_back (g := d.graph) (fuel := fuel) p
    (ta := .ty d.root n) hn hv hx
  exact ⟨q, T, h1, by rw [TypeDescriptor.typeAt, hnew]; exact h2, h3⟩

/-- C76: a type or variant found by a path that says it has a default has one, in any graph. -/
theorem C76_has_default {g : TypeGraph} {fuel : Nat} {T : TypeAt}
    (h : T.hasDefault g fuel = some true) : ∃ v, T.defaultValue g fuel = some (some v) := by
  cases T with
  | ty id n => exact default_of_has g fuel id h
  | «variant» a => exact defaultVariant_of_has (default_of_has g fuel) a h

/-- C76: the answer does not depend on the depth allowed, once there is one. -/
theorem C76_depth {g : TypeGraph} {fuel n : Nat} {T : TypeAt} {r : Option Value}
    (h : T.defaultValue g fuel = some r) : T.defaultValue g (fuel + n) = some r := by
  have hm : ∀ n t r, defaultValue g fuel t = some r → defaultValue g (fuel + n) t = some r := by
    intro n
    induction n with
    | zero => intro t r h; exact h
    | succ n ih => intro t r h; exact defaultValue_succ g _ t r (ih t r h)
  cases T with
  | ty id node => exact hm n id r h
  | «variant» a => exact defaultVariant_mono (hm n) a h

/-! ### The hypotheses are met -/

/-- An array of two pairs of an `Opt` and a `Secret`. -/
def defaultDemoTy : Ty := .array (.tuple [.named "Opt", .named "Secret"]) 2

/-- The path `[1].0::Some.0.x`. -/
def defaultDemoPath : KeyPath :=
  [.get (.scalar (.int .i32 1)), .numbered 0, .variant "Some", .numbered 0, .named "x"]

/-- The path leads to a number in the default, and to its type. -/
example : ∃ d v T x, describe demoEnv 20 defaultDemoTy = some d ∧
    defaultValue d.graph 20 d.root = some (some v) ∧ d.typeAt defaultDemoPath = some (some T) ∧
    atPath demoEnv v.toObj defaultDemoPath = some x ∧ x = .scalar (.int .i32 0) ∧
    T.hasDefault d.graph 20 = some true := by
  refine ⟨_, _, _, _, rfl, rfl, rfl, ?_, rfl, rfl⟩
  simp [defaultDemoPath, atPath_cons, Value.toObj, Obj.atKey, Obj.kind, valueToUsize, Obj.fieldAt,
    usizeSize, svOfList, svSet, Obj.variantName, Obj.variantKind, visAt, Obj.isHidden, Obj.field, bmInsert,
    strCmp, natListCmp, lookup, visFields, atPath_nil, ScalarKind.default]
  simp [show compare 121 120 = Ordering.gt from rfl, Value.toObj, lookup]

/-- A step past the end of the array, and into the second variant: the type has these, the default has
not. -/
example : ∃ d v T T', describe demoEnv 20 defaultDemoTy = some d ∧
    defaultValue d.graph 20 d.root = some (some v) ∧
    d.typeAt [.get (.scalar (.int .i32 2))] = some (some T) ∧
    atPath demoEnv v.toObj [.get (.scalar (.int .i32 2))] = none ∧
    d.typeAt [.get (.scalar (.int .i32 0)), .numbered 0, .variant "None"] = some (some T') ∧
    atPath demoEnv v.toObj [.get (.scalar (.int .i32 0)), .numbered 0, .variant "None"] = none := by
  refine ⟨_, _, _, _, rfl, rfl, rfl, ?_, rfl, ?_⟩
  · simp [atPath_cons, Value.toObj, Obj.atKey, Obj.kind, valueToUsize, Obj.fieldAt, usizeSize]
  · simp [atPath_cons, Value.toObj, Obj.atKey, Obj.kind, valueToUsize, Obj.fieldAt, usizeSize,
      visAt, Obj.isHidden, Obj.variantName]

/-- A path that reads the field of the enum directly: the type needs the variant named. -/
example : ∃ d v x, describe demoEnv 20 defaultDemoTy = some d ∧
    defaultValue d.graph 20 d.root = some (some v) ∧
    atPath demoEnv v.toObj [.get (.scalar (.int .i32 0)), .numbered 0, .numbered 0] = some x ∧
    d.typeAt [.get (.scalar (.int .i32 0)), .numbered 0, .numbered 0] = some none :=
  ⟨_, _, .struct _ _, rfl, rfl, by
    simp [atPath_cons, Value.toObj, Obj.atKey, Obj.kind, valueToUsize, Obj.fieldAt, usizeSize,
      visAt, Obj.isHidden, Obj.variantKind]
    exact atPath_nil _ _, rfl⟩

end Mirror
