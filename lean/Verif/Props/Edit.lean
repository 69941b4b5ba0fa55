import Verif.Lemmas.Edit
import Verif.Lemmas.Demo

set_option linter.unusedSimpArgs false

/-!
# C77: histories of edits through `&mut dyn Reflect`

A program that only holds a `&mut dyn Reflect` changes it by going to a part with `at_mut` and patching,
overwriting, pushing, popping, inserting or removing there. Whatever it does, the value stays a proper value of
its type, and changes stay below the paths used. Clients that keep to diverging paths do not notice each other,
in whatever order their edits happen.
-/

namespace Mirror

/-- C77: any history of edits, at any paths, with any proper arguments of any types, leaves a proper value of
the type it had. -/
theorem C77_type_kept (E : Env) (hO : OrdLaws E) (T : Ty) (x : Obj) (es : List Edit) (hx : HasTy E T x)
    (hes : ∀ e ∈ es, e.Proper E) : HasTy E T (runEdits E x es).2 := by
  induction es generalizing x with
  | nil => exact hx
  | cons e es ih =>
    refine ih _ ?_ fun e he => hes e (by simp [he])
    rw [run_snd]
    exact upd_typed hO (act_keeps hO (hes e (by simp)).2) hx

/-- C77: edits below `p` do to the part at `p` what they do to that part as a value of its own: they return the
same, and leave it in the same state, at the same place. `p` must not end in a variant key: then an edit may
leave another variant, and no part at `p`. -/
theorem C77_part_alone (E : Env) (hO : OrdLaws E) (T : Ty) (x y : Obj) (p : KeyPath) (es : List Edit)
    (hx : HasTy E T x) (hy : atPath E x p = some y) (hv : ∀ v, p.getLast? ≠ some (.variant v))
    (hes : ∀ e ∈ es, e.Proper E) :
    (runEdits E x (es.map (Edit.under p))).1 = (runEdits E y es).1 ∧
    atPath E (runEdits E x (es.map (Edit.under p))).2 p = some (runEdits E y es).2 := by
  obtain ⟨h1, h2⟩ := runEdits_under hO hv hes ⟨T, hx⟩ hy
  refine ⟨h1, ?_⟩
  rw [h2]
  have hk : Keeps E fun z => (runEdits E z es).2 := fun S z hz => C77_type_kept E hO S z es hz hes
  have := upd_read hO hk hv ⟨T, hx⟩ hy
  rw [← this]
  congr 1
  unfold upd
  have h := atMutPath_get E x p
  rw [hy] at h
  cases hpl : atMutPath E x p with
  | none => rfl
  | some pl =>
    rw [hpl] at h
    cases h
    rfl

/-- C77: edits below `p` change nothing at a path that diverges from `p`. -/
theorem C77_rest_unchanged (E : Env) (hO : OrdLaws E) (T : Ty) (x : Obj) (p q : KeyPath) (es : List Edit)
    (hx : HasTy E T x) (hp : KeyPath.WF p) (hq : KeyPath.WF q) (hd : Diverge E x p q)
    (hes : ∀ e ∈ es, e.Proper E ∧ p <+: e.path) :
    atPath E (runEdits E x es).2 q = atPath E x q := by
  induction es generalizing x with
  | nil => rfl
  | cons e es ih =>
    obtain ⟨he, ⟨r, hr⟩⟩ := hes e (by simp)
    have hf := act_keeps hO he.2
    simp only [runEdits]
    have h1 : HasTy E T (e.run E x).2 := by rw [run_snd]; exact upd_typed hO hf hx
    refine (ih _ h1 ?_ fun e he => hes e (by simp [he])).trans ?_
    · rw [run_snd, ← hr]
      exact hd.after_own hO hf r ⟨T, hx⟩ hp hq
    · rw [run_snd, ← hr]
      have hd' := hd.append r []
      rw [List.append_nil] at hd'
      exact upd_frame hO hf hd' ⟨T, hx⟩ (by rw [hr]; exact he.1) hq

/-- C77: clients that keep to diverging paths: what a client is returned, in any schedule, is what it is returned
when it is alone, and what it finds below its path afterwards is what it finds there when it is alone. -/
theorem C77_client_alone {ι : Type} [DecidableEq ι] (E : Env) (hO : OrdLaws E) (T : Ty) (x : Obj)
    (area : ι → KeyPath) (s : List (ι × Edit)) (hx : HasTy E T x) (hs : Separate E x area s) (i : ι) :
    ownedBy i (runSchedule E x s).1 = (runEdits E x (ownedBy i s)).1 ∧
    ∀ r, KeyPath.WF r → atPath E (runSchedule E x s).2 (area i ++ r) =
      atPath E (runEdits E x (ownedBy i s)).2 (area i ++ r) :=
  schedule_alone hO i ⟨T, hx⟩ hs

/-- C77: two schedules in which every client makes the same edits in the same order end in the same value. -/
theorem C77_schedules_agree {ι : Type} [DecidableEq ι] (E : Env) (hO : OrdLaws E) (T : Ty) (x : Obj)
    (area : ι → KeyPath) (s s' : List (ι × Edit)) (hx : HasTy E T x) (hs : Separate E x area s)
    (hs' : Separate E x area s') (h : ∀ i, ownedBy i s = ownedBy i s') :
    (runSchedule E x s).2 = (runSchedule E x s').2 :=
  schedule_same hO ⟨T, hx⟩ hs hs' h

/-- C77: and they return the same to every client. -/
theorem C77_schedules_answer {ι : Type} [DecidableEq ι] (E : Env) (hO : OrdLaws E) (T : Ty) (x : Obj)
    (area : ι → KeyPath) (s s' : List (ι × Edit)) (hx : HasTy E T x) (hs : Separate E x area s)
    (hs' : Separate E x area s') (h : ∀ i, ownedBy i s = ownedBy i s') (i : ι) :
    ownedBy i (runSchedule E x s).1 = ownedBy i (runSchedule E x s').1 := by
  rw [(schedule_alone hO i ⟨T, hx⟩ hs).1, (schedule_alone hO i ⟨T, hx⟩ hs').1, h i]

/-! ## A case -/

/-- Two clients of the demo tree: one works on `.kids`, the other on `.names`. -/
def demoArea (b : Bool) : KeyPath := if b then [.named "kids"] else [.named "names"]

/-- One pops a child and pushes the popped tree's sibling; the other removes an entry and patches the map. -/
def demoSchedule : List (Bool × Edit) :=
  [(true, ⟨[.named "kids"], .list .pop⟩),
   (false, ⟨[.named "names"], .map (.remove (.scalar (.string "a")))⟩),
   (true, ⟨[.named "kids"], .list (.push demoTree)⟩),
   (false, ⟨[.named "names", .get (.scalar (.string "b"))], .patch (.scalar (.int .u8 7))⟩),
   (true, ⟨[.named "kids", .get (.scalar (.int .u8 0)), .named "val"], .assign (.nonzero .u8 3)⟩)]

theorem demoSchedule_separate : Separate demoEnv demoTree demoArea demoSchedule where
  keys b := by cases b <;> (intro v hv; simp [demoArea] at hv)
  apart i j h := by
    cases i <;> cases j <;> first
      | exact absurd rfl h
      | exact .here _ _ _ _ _ (.named _ _ _ (by decide))
  stays p hp := by
    simp only [demoSchedule, List.mem_cons, List.not_mem_nil, or_false] at hp
    rcases hp with rfl | rfl | rfl | rfl | rfl <;> simp [demoArea]
  proper p hp := by
    simp only [demoSchedule, List.mem_cons, List.not_mem_nil, or_false] at hp
    rcases hp with rfl | rfl | rfl | rfl | rfl
    · exact ⟨fun v hv => by simp at hv, trivial⟩
    · exact ⟨fun v hv => by simp at hv, ⟨_, .scalar _⟩⟩
    · exact ⟨fun v hv => by simp at hv, ⟨_, demoTree_hasTy⟩⟩
    · refine ⟨fun v hv => ?_, ⟨_, .scalar _⟩⟩
      simp at hv; subst hv; exact .scalar _
    · refine ⟨fun v hv => ?_, ⟨.nonzero .u8, .nonzero _ _ (by decide)⟩⟩
      simp at hv; subst hv; exact .scalar _

/-- The hypotheses are met; the schedule has an effect: the child popped is handed to the first client, the entry
removed to the second. -/
example : Separate demoEnv demoTree demoArea demoSchedule ∧ HasTy demoEnv (.named "Tree") demoTree ∧
    (runSchedule demoEnv demoTree (demoSchedule.take 2)).1 =
      [(true, atPath demoEnv demoTree [.named "kids", .get (.scalar (.int .u8 0))]),
       (false, some (.scalar (.int .u8 1)))] := by
  refine ⟨demoSchedule_separate, demoTree_hasTy, ?_⟩
  have hu := fun x n p f => upd_step demoEnv x (k := .named n) (by simp [Key.sort]) p f
  simp [demoSchedule, runSchedule, run_fst, run_snd, hu, keyIdx, nameIdx, Obj.kids, Obj.withKids, Obj.fieldAt, upd_nil, demoTree, atPath_cons, atPath_nil,
    Obj.atKey, visAt, Obj.kind, Obj.field, visFields, Obj.isHidden, lookup, Act.run, ListOp.run,
    MapOp.run, Obj.listPop, Obj.mapRemove, vecPop, fromReflect, Obj.isTy, Obj.typeOf, Scalar.kind, bmGet,
    valueOrdEnv, Obj.toValue, Value.cmp_self, valueToUsize, usizeSize]
  simp [demoEnv, valueOrdEnv, Obj.toValue, Value.cmp_self]

/-- Below `.names` of the demo tree: a removal and a patch, as edits of the map alone. -/
example (r : List (Option Obj) × Obj) (hr : r = runEdits demoEnv (.map (.scalar .string) (.scalar (.int .u8))
      [(.scalar (.string "a"), .scalar (.int .u8 1)), (.scalar (.string "b"), .scalar (.int .u8 2))])
      [⟨[], .map (.remove (.scalar (.string "a")))⟩, ⟨[], .patch demoSecret⟩]) :
    (runEdits demoEnv demoTree [⟨[.named "names"], .map (.remove (.scalar (.string "a")))⟩,
      ⟨[.named "names"], .patch demoSecret⟩]).1 = r.1 ∧
    atPath demoEnv (runEdits demoEnv demoTree [⟨[.named "names"], .map (.remove (.scalar (.string "a")))⟩,
      ⟨[.named "names"], .patch demoSecret⟩]).2 [.named "names"] = some r.2 := by
  subst hr
  refine C77_part_alone demoEnv demo_ordLaws _ demoTree _ [.named "names"]
    [⟨[], .map (.remove (.scalar (.string "a")))⟩, ⟨[], .patch demoSecret⟩] demoTree_hasTy ?_ (by simp) ?_
  · simp [demoTree, atPath_cons, atPath_nil, Obj.atKey, Obj.kind, Obj.field, visFields, Obj.isHidden, lookup]
  · intro e he
    simp only [List.mem_cons, List.not_mem_nil, or_false] at he
    rcases he with rfl | rfl
    · exact ⟨fun v hv => by simp at hv, ⟨_, .scalar _⟩⟩
    · exact ⟨fun v hv => by simp at hv, ⟨_, demoSecret_hasTy⟩⟩

/-- A part named by its variant is gone after an edit that leaves another variant. -/
example (E : Env) (x y : Obj) (v : String) (h : y.variantName ≠ some v) (ht : x.typeOf = y.typeOf)
    (hx : x.variantName = some v) :
    atPath E x [.variant v] = some x ∧
    atPath E (runEdits E x [⟨[.variant v], .assign y⟩]).2 [.variant v] = none := by
  simp [runEdits, run_snd, upd_variant, hx, upd_nil, Act.run, ht, atPath_cons, atPath_nil, atKey_variant, h]

end Mirror
