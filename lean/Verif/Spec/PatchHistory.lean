import Verif.Spec.Convert
import Verif.Spec.Parts

/-!
# Specification: patches that do not meet, and patches that make earlier ones superfluous
-/

namespace Mirror

/-- Some type of map keys takes `a` and `b` for the same key. -/
def SameKey (E : Env) (a b : Obj) : Prop :=
  ∃ t y z, ConvertsTo E t a y ∧ ConvertsTo E t b z ∧ E.kcmp t y z = .eq

/-- The patches `v` and `w` do not meet: nowhere do they both have something for the same place. Two enums always
meet, because an enum may be replaced as a whole. -/
inductive DoNotMeet (E : Env) : Obj → Obj → Prop
  | kinds (v w) : v.kind ≠ w.kind → DoNotMeet E v w
  | structs (v w) : v.kind = .struct → w.kind = .struct →
      (∀ n a b, v.field n = some a → w.field n = some b → DoNotMeet E a b) → DoNotMeet E v w
  | positions (v w) : v.kind = w.kind →
      v.kind = .tupleStruct ∨ v.kind = .tuple ∨ v.kind = .list ∨ v.kind = .array →
      (∀ i a b, v.fieldAt i = some a → w.fieldAt i = some b → DoNotMeet E a b) → DoNotMeet E v w
  | maps (kt vt kt' vt' m m') : (∀ p ∈ m, ∀ q ∈ m', SameKey E p.1 q.1 → DoNotMeet E p.2 q.2) →
      DoNotMeet E (.map kt vt m) (.map kt' vt' m')

/-- The patch `w` has something for every place `v` has something for, and nothing `v` puts there can outlive `w`:
scalars by scalars of the same type, other than zero (a `NonZero` integer ignores zeros); records field by field;
lists and tuples position by position; maps entry by entry; and everything, in particular an enum, by itself. -/
inductive Covers : Obj → Obj → Prop
  | same (v) : v.EnumsGapFree → Covers v v
  | scalar (s s') : s.kind = s'.kind → (∀ k, s ≠ .int k 0) → Covers (.scalar s) (.scalar s')
  | structs (w v) : w.kind = .struct → v.kind = .struct →
      (∀ n a, v.field n = some a → w.field n ≠ none) →
      (∀ n a b, v.field n = some a → w.field n = some b → Covers b a) → Covers w v
  | positions (w v) : w.kind = v.kind →
      v.kind = .tupleStruct ∨ v.kind = .tuple ∨ v.kind = .list ∨ v.kind = .array →
      (∀ i a, v.fieldAt i = some a → w.fieldAt i ≠ none) →
      (∀ i a b, v.fieldAt i = some a → w.fieldAt i = some b → Covers b a) → Covers w v
  | maps (kt vt kt' vt' m m') (entry : Obj × Obj → Obj × Obj) :
      (∀ p ∈ m', entry p ∈ m ∧ (entry p).1 = p.1) → (∀ p ∈ m', Covers (entry p).2 p.2) →
      Covers (.map kt vt m) (.map kt' vt' m')

/-- Patch with one value after the other. -/
def patchAll (pat : Obj → Obj → Obj) (x : Obj) : List Obj → Obj
  | [] => x
  | v :: vs => patchAll pat (pat x v) vs

end Mirror
