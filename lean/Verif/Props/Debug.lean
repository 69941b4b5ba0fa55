import Verif.Model.Debug
import Verif.Lemmas.Mut
import Verif.Lemmas.Containers
import Verif.Lemmas.Demo
import Verif.Props.ReflectEq

set_option linter.unusedSimpArgs false

/-!
# Debug output (C58)
-/

namespace Mirror

variable {E : Env}

theorem debugNamed_map (l : List (String × Obj)) :
    debugNamed (l.map fun p => VField.struct p.1 p.2) = some l := by
  induction l with
  | nil => rfl
  | cons p r ih => simp [debugNamed, ih]

theorem debugPos_map (l : List Obj) : debugPos (l.map VField.tuple) = some l := by
  induction l with
  | nil => rfl
  | cons p r ih => simp [debugPos, ih]

/-- C58. `reflect_debug` never panics, whatever the value. -/
theorem C58_never_panics (nm : Obj → String) (o : Obj) : ∃ r, reflectDebug nm o = some r := by
  cases o <;> simp only [reflectDebug, Obj.kind, Obj.variantKind, Obj.variantName, Obj.variantIter,
    Obj.asScalar, Option.map_some, Option.some.injEq, exists_eq'] <;>
    first
      | (rw [debugNamed_map]; exact ⟨_, rfl⟩)
      | (rw [debugPos_map]; exact ⟨_, rfl⟩)

/-- What a complete `Debug` output of a value shows: its type or variant name, and the fields that are not
skipped in declaration order (`StructValue` and dynamic enums: each listed name with its value), all
elements, all entries, or the scalar. -/
inductive Complete (nm : Obj → String) : Obj → Dbg → Prop
  | struct (n fs) : Complete nm (.struct (.derived n) fs)
      (.struct (nm (.struct (.derived n) fs)) (fs.filter fun p => !p.2.isHidden))
  | structDyn (ns fs l) : l.map (·.1) = ns → (∀ p ∈ l, p ∈ fs) →
      Complete nm (.struct (.dyn ns) fs) (.struct (nm (.struct (.dyn ns) fs)) l)
  | tupleStruct (t fs) : Complete nm (.tupleStruct t fs)
      (.tuple (nm (.tupleStruct t fs)) (fs.filter fun x => !x.isHidden))
  | tuple (t fs) : Complete nm (.tuple t fs) (.tuple "" (fs.filter fun x => !x.isHidden))
  | enumS (n v fs) : Complete nm (.enumS (.derived n) v fs) (.struct v (fs.filter fun p => !p.2.isHidden))
  | enumSDyn (ns v fs l) : l.map (·.1) = ns → (∀ p ∈ l, p ∈ fs) →
      Complete nm (.enumS (.dyn ns) v fs) (.struct v l)
  | enumT (t v fs) : Complete nm (.enumT t v fs) (.tuple v (fs.filter fun x => !x.isHidden))
  | enumU (t v) : Complete nm (.enumU t v) (.text v)
  | vec (t xs) : Complete nm (.vec t xs) (.list xs)
  | array (t xs) : Complete nm (.array t xs) (.list xs)
  | map (k v kvs) : Complete nm (.map k v kvs) (.map kvs)
  | scalar (s) : Complete nm (.scalar s) (.scalar s)
  | nonzero (k n) : Complete nm (.nonzero k n) (.scalar (.int k n))

theorem dynIter_sub {fs : List (String × Obj)} : ∀ {ns : List String}, ∀ p ∈ dynIter fs ns, p ∈ fs
  | [], p, h => by simp [dynIter] at h
  | n :: ns, p, h => by
    simp only [dynIter] at h
    split at h
    · next x hx =>
      rcases List.mem_cons.mp h with rfl | h
      · exact lookup_mem hx
      · exact dynIter_sub p h
    · simp at h

/-- C58, exactly when it holds. For every value of every type, the output of `reflect_debug` is complete if
and only if no skipped field of a tuple struct or enum variant stands before a reflected one. -/
theorem C58_complete_iff (hO : OrdLaws E) {T : Ty} {o : Obj} (h : HasTy E T o) (nm : Obj → String) :
    (∃ r, reflectDebug nm o = some r ∧ Complete nm o r) ↔ o.GapFree := by
  have dn := OK.dyn_names hO ⟨T, h⟩
  have tw : ∀ fs : List Obj, (fs.takeWhile (fun x => !x.isHidden) = fs.filter fun x => !x.isHidden) ↔
      ∀ i j : Nat, i < j → ∀ x, fs[j]? = some x → x.isHidden = false →
        ∃ y, fs[i]? = some y ∧ y.isHidden = false := by
    intro fs
    rw [takeWhile_eq_filter_iff]
    simp
  have tw' : ∀ fs : List (String × Obj),
      (fs.takeWhile (fun p => !p.2.isHidden) = fs.filter fun p => !p.2.isHidden) ↔
      ∀ i j : Nat, i < j → ∀ p, fs[j]? = some p → p.2.isHidden = false →
        ∃ q, fs[i]? = some q ∧ q.2.isHidden = false := by
    intro fs
    rw [takeWhile_eq_filter_iff]
    simp
  cases o with
  | struct tag fs =>
    refine ⟨fun _ => trivial, fun _ => ?_⟩
    cases tag with
    | derived n => exact ⟨_, rfl, .struct n fs⟩
    | dyn ns => exact ⟨_, rfl, .structDyn ns fs _
        (dynIter_names fun n hn => (dn.1 _ _ rfl n).mp hn) dynIter_sub⟩
  | tupleStruct tag fs =>
    simp only [Obj.GapFree, ← tw, reflectDebug, Obj.kind, Obj.posIter, Option.some.injEq]
    constructor
    · rintro ⟨r, rfl, hc⟩
      generalize hl : fs.takeWhile (fun x => !x.isHidden) = l at hc ⊢
      cases hc; rfl
    · intro he; rw [he]; exact ⟨_, rfl, .tupleStruct tag fs⟩
  | tuple tag fs =>
    simp only [Obj.GapFree, ← tw, reflectDebug, Obj.kind, Obj.posIter, Option.some.injEq]
    constructor
    · rintro ⟨r, rfl, hc⟩
      generalize hl : fs.takeWhile (fun x => !x.isHidden) = l at hc ⊢
      cases hc; rfl
    · intro he; rw [he]; exact ⟨_, rfl, .tuple tag fs⟩
  | enumT tag v fs =>
    simp only [Obj.GapFree, ← tw, reflectDebug, Obj.kind, Obj.variantKind, Obj.variantName, Obj.variantIter,
      Obj.posIter, debugPos_map, Option.map_some, Option.some.injEq]
    constructor
    · rintro ⟨r, rfl, hc⟩
      generalize hl : fs.takeWhile (fun x => !x.isHidden) = l at hc ⊢
      cases hc; rfl
    · intro he; rw [he]; exact ⟨_, rfl, .enumT tag v fs⟩
  | enumS tag v fs =>
    simp only [reflectDebug, Obj.kind, Obj.variantKind, Obj.variantName, Obj.variantIter, debugNamed_map,
      Option.map_some, Option.some.injEq]
    cases tag with
    | derived n =>
      simp only [Obj.GapFree, ← tw', Obj.namedIter]
      constructor
      · rintro ⟨r, rfl, hc⟩
        generalize hl : fs.takeWhile (fun p => !p.2.isHidden) = l at hc ⊢
        cases hc; rfl
      · intro he; rw [he]; exact ⟨_, rfl, .enumS n v fs⟩
    | dyn ns =>
      exact ⟨fun _ => trivial, fun _ => ⟨_, rfl, .enumSDyn ns v fs _
        (dynIter_names fun n hn => (dn.2 _ _ _ rfl n).mp hn) dynIter_sub⟩⟩
  | enumU tag v => exact ⟨fun _ => trivial, fun _ => ⟨_, rfl, .enumU tag v⟩⟩
  | vec t xs => exact ⟨fun _ => trivial, fun _ => ⟨_, rfl, .vec t xs⟩⟩
  | array t xs => exact ⟨fun _ => trivial, fun _ => ⟨_, rfl, .array t xs⟩⟩
  | map k v kvs => exact ⟨fun _ => trivial, fun _ => ⟨_, rfl, .map k v kvs⟩⟩
  | scalar s => exact ⟨fun _ => trivial, fun _ => ⟨_, rfl, .scalar s⟩⟩
  | nonzero k n => exact ⟨fun _ => trivial, fun _ => ⟨_, rfl, .nonzero k n⟩⟩
  | hidden d => exact absurd h.not_hidden (by simp [Obj.isHidden])

/-- C58, where it holds. If all declarations put skipped fields after the reflected ones, the output is
complete for every value. Missing: declarations with a skipped field earlier in a tuple struct or enum
variant, whose output lacks fields (`C58_complete_iff`). -/
theorem C58_complete_partial (hO : OrdLaws E) (hS : SkipsLastAll E) {T : Ty} {o : Obj} (h : HasTy E T o)
    (nm : Obj → String) : ∃ r, reflectDebug nm o = some r ∧ Complete nm o r := by
  rw [C58_complete_iff hO h]
  obtain ⟨h1, h2, h3⟩ := OK.hiddenLast hO hS.1 ⟨T, h⟩
  have key : ∀ {fs : List Obj}, HiddenLast fs →
      ∀ i j : Nat, i < j → ∀ x, fs[j]? = some x → x.isHidden = false →
        ∃ y, fs[i]? = some y ∧ y.isHidden = false := by
    intro fs hl i j hij x hx hh
    have hjl := (List.getElem?_eq_some_iff.mp hx).1
    refine ⟨fs[i]'(by omega), List.getElem?_eq_getElem _, ?_⟩
    cases hy : (fs[i]'(by omega)).isHidden with
    | false => rfl
    | true =>
      have := hl i j _ _ (List.getElem?_eq_getElem (by omega)) hx hy hh
      omega
  cases o with
  | tupleStruct tag fs => exact key (h1 _ _ rfl)
  | tuple tag fs => exact key (h2 _ _ rfl)
  | enumT tag v fs => exact key (h3 _ _ _ rfl)
  | enumS tag v fs =>
    cases tag with
    | dyn ns => trivial
    | derived n =>
      have hl := OK.namedHiddenLast hO hS ⟨T, h⟩
      rw [visFields, takeWhile_eq_filter_iff] at hl
      simpa [Obj.GapFree] using hl
  | _ => trivial

/-- `Secret { a, hidden (skip), b }` shows `a` and `b`. -/
example (nm : Obj → String) : (∃ r, reflectDebug nm demoSecret = some r ∧ Complete nm demoSecret r) ∧
    SkipsLastAll demoEnv ∧ HasTy demoEnv (.named "Secret") demoSecret :=
  ⟨C58_complete_partial demo_ordLaws demo_skipsLastAll demoSecret_hasTy nm, demo_skipsLastAll,
    demoSecret_hasTy⟩

/-- `struct Bad(#[reflect(skip)] _, u8)` prints as `Bad`. -/
example : reflectDebug (fun _ => "Bad") (.tupleStruct (.derived "Bad") [.hidden 0, .scalar (.int .u8 1)]) =
      some (.tuple "Bad" []) ∧
    ¬ (Obj.tupleStruct (.derived "Bad") [.hidden 0, .scalar (.int .u8 1)]).GapFree := by
  refine ⟨by simp [reflectDebug, Obj.kind, Obj.posIter, Obj.isHidden], fun h => ?_⟩
  obtain ⟨y, hy, hh⟩ := h 0 1 (by decide) (.scalar (.int .u8 1)) rfl rfl
  cases hy; cases hh

end Mirror
