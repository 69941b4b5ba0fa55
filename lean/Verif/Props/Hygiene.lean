import Verif.Lemmas.Hygiene
import Verif.Lemmas.FromReflect

set_option linter.unusedSimpArgs false

/-!
# Field names that the generated enum code captures (C69)

The fields of a struct-like variant `V { a: .., b: .. }` are `fs`, in declared order, skipped ones
as `Obj.hidden`. `visFields fs` are those that are not skipped. The meaning a user expects of the
accessors is `Obj.field`, `Obj.fieldAt`, `Obj.nameAt`, `Obj.toValue` of the main model, which look
only at `fs` and the argument.
-/

namespace Mirror

section
variable {hs : Nat → Option String} {fs : List (String × Obj)} (hn : (fs.map (·.1)).Nodup)
  (t vn : String)

/-- `x` holds text that Rust compares with a `&str`: a `String`, or a skipped field of such a type. -/
def TextIs (hs : Nat → Option String) (x : Obj) (s : String) : Prop :=
  x = .scalar (.string s) ∨ ∃ d, x = .hidden d ∧ hs d = some s

include hn

theorem vis_lookup (ρ : GEnv) : ∀ p ∈ visFields fs, lookup p.1 (armEnv fs ++ ρ) = some (.fld p.2) :=
  fun _ hp => lookup_bound hn (vis_mem hp).1 ρ

/-- Without a field called `name`, `field(n)` finds the field called `n`. -/
theorem C69_field_found (h : "name" ∉ fs.map (·.1)) (n : String) :
    genField hs fs n = some ((Obj.enumS (.derived t) vn fs).field n) :=
  run_named (nv := .str n) (by rw [lookup_free h]; rfl) (fun _ => rfl) _ (vis_lookup hn _)

/-- With a field called `name` that holds the text `s`, `field(n)` finds the field called `s`,
whatever `n` is. -/
theorem C69_field_captured {x : Obj} (hm : ("name", x) ∈ fs) {s : String} (hx : TextIs hs x s)
    (n : String) : genField hs fs n = some ((Obj.enumS (.derived t) vn fs).field s) := by
  refine run_named (nv := .fld x) (lookup_bound hn hm _) (fun b => ?_) _ (vis_lookup hn _)
  rcases hx with rfl | ⟨d, rfl, hd⟩
  · rfl
  · simp [GVal.eq, hd]

/-- With a field called `name` of any other type, the derive does not compile as soon as the variant
has a field that is not skipped. -/
theorem C69_field_no_build {x : Obj} (hm : ("name", x) ∈ fs) (hx : ∀ s, ¬ TextIs hs x s)
    (hv : visFields fs ≠ []) (n : String) : genField hs fs n = none := by
  refine run_named_none (nv := .fld x) (lookup_bound hn hm _) (fun b => ?_) hv
  cases x with
  | scalar s =>
    cases s with
    | string s => exact absurd (.inl rfl) (hx s)
    | _ => rfl
  | hidden d =>
    cases hd : hs d with
    | none => simp [GVal.eq, hd]
    | some s => exact absurd (.inr ⟨d, rfl, hd⟩) (hx s)
  | _ => rfl

/-- `Enum::field` is right for every name exactly when no field of the variant, skipped or not, is
called `name` (or the variant shows no field at all). -/
theorem C69_field_iff :
    (∀ n, genField hs fs n = some ((Obj.enumS (.derived t) vn fs).field n)) ↔
      "name" ∉ fs.map (·.1) ∨ visFields fs = [] := by
  constructor
  · intro h
    by_cases hm : "name" ∈ fs.map (·.1)
    · right
      obtain ⟨⟨m, x⟩, hm, rfl⟩ := List.mem_map.mp hm
      cases hv : visFields fs with
      | nil => rfl
      | cons p r =>
        exfalso
        by_cases hx : ∃ s, TextIs hs x s
        · obtain ⟨s, hx⟩ := hx
          have h1 := fun n => (C69_field_captured hn t vn hm hx n).symm.trans (h n)
          have hp : lookup p.1 (visFields fs) = some p.2 := by rw [hv]; simp [lookup]
          have h2 : (Obj.enumS (.derived t) vn fs).field s = some p.2 := by
            have := h1 p.1; simp only [Option.some.injEq] at this; rw [this]; exact hp
          -- a name no field has
          have : ∃ m, m ∉ (visFields fs).map (·.1) := by
            refine ⟨String.join ((visFields fs).map (·.1)) ++ "_", fun hmem => ?_⟩
            have hlen : ∀ (l : List String) (x : String), x ∈ l → x.length ≤ (String.join l).length := by
              intro l
              induction l with
              | nil => intro x hx; cases hx
              | cons a r ih =>
                intro x hx
                have : String.join (a :: r) = a ++ String.join r := by simp [String.join_cons]
                rw [this, String.length_append]
                rcases List.mem_cons.mp hx with rfl | hx
                · omega
                · have := ih x hx; omega
            have := hlen _ _ hmem
            rw [String.length_append] at this
            have h1 : "_".length = 1 := by decide
            omega
          obtain ⟨m, hm'⟩ := this
          have h3 := h1 m
          simp only [Option.some.injEq] at h3
          rw [h2] at h3
          have : (Obj.enumS (.derived t) vn fs).field m = none := lookup_none_iff.mpr hm'
          rw [this] at h3; cases h3
        · have := h p.1
          rw [C69_field_no_build hn hm (fun s hs' => hx ⟨s, hs'⟩) (by rw [hv]; simp)] at this
          cases this
    · exact .inl hm
  · rintro (h | h) n
    · exact C69_field_found hn t vn h n
    · simp [genField, fieldArm, h, GStmt.run, retField, Obj.field, lookup]

/-- `field_at` is right for every index exactly when no field is called `index`; otherwise it does
not compile. -/
theorem C69_field_at_iff :
    (∀ i, genFieldAt hs fs i = some ((Obj.enumS (.derived t) vn fs).fieldAt i)) ↔
      "index" ∉ fs.map (·.1) ∨ visFields fs = [] := by
  constructor
  · intro h
    by_cases hm : "index" ∈ fs.map (·.1)
    · right
      obtain ⟨⟨m, x⟩, hm, rfl⟩ := List.mem_map.mp hm
      by_cases hv : visFields fs = []
      · exact hv
      · have := h 0
        rw [genFieldAt, run_index_none (ret := fun p => .var p.1) (lookup_bound hn hm _)
          (genIdx_ne hv)] at this
        cases this
    · exact .inl hm
  · rintro (h | h) i
    · rw [genFieldAt, run_index (k := i) (ret := fun p => .var p.1) (val := fun p => .fld p.2)
        (by rw [lookup_free h]; rfl) 0 fs fun p hp => lookup_bound hn hp _]
      simp only [Nat.zero_le, if_true, Nat.sub_zero, Obj.fieldAt, visAt, List.getElem?_map]
      cases hi : fs[i]? with
      | none => rfl
      | some p => by_cases hp : p.2.isHidden <;> simp [hp, retField]
    · rw [genFieldAt, genIdx_nil h]
      simp only [List.map_nil, GStmt.run, retField, Obj.fieldAt, visAt_nil i h]

/-- `name_at` likewise. -/
theorem C69_name_at_iff :
    (∀ i, genNameAt hs fs i = some (((Obj.enumS (.derived t) vn fs).nameAt i).map .str)) ↔
      "index" ∉ fs.map (·.1) ∨ visFields fs = [] := by
  constructor
  · intro h
    by_cases hm : "index" ∈ fs.map (·.1)
    · right
      obtain ⟨⟨m, x⟩, hm, rfl⟩ := List.mem_map.mp hm
      by_cases hv : visFields fs = []
      · exact hv
      · have := h 0
        rw [genNameAt, run_index_none (ret := fun p => .str p.1) (lookup_bound hn hm _)
          (genIdx_ne hv)] at this
        cases this
    · exact .inl hm
  · rintro (h | h) i
    · rw [genNameAt, run_index (k := i) (ret := fun p => .str p.1) (val := fun p => .str p.1)
        (by rw [lookup_free h]; rfl) 0 fs fun p hp => rfl]
      simp only [Nat.zero_le, if_true, Nat.sub_zero, Obj.nameAt]
      cases hi : fs[i]? with
      | none => rfl
      | some p => by_cases hp : p.2.isHidden <;> simp [hp]
    · rw [genNameAt, genIdx_nil h]
      have : (Obj.enumS (.derived t) vn fs).nameAt i = none := by
        have := visAt_nil i h
        rw [visAt, List.getElem?_map] at this
        rw [Obj.nameAt]
        cases hi : fs[i]? with
        | none => rfl
        | some p =>
          rw [hi] at this
          by_cases hp : p.2.isHidden
          · simp [hp]
          · simp [hp] at this
      rw [this]; rfl

/-- `to_value` is right exactly when no field that it copies is called `value`; otherwise it does
not compile. -/
theorem C69_to_value_iff :
    genToValue vn fs = some (Obj.enumS (.derived t) vn fs).toValue ↔
      "value" ∉ (visFields fs).map (·.1) := by
  constructor
  · intro h hm
    obtain ⟨p, hm, he⟩ := List.mem_map.mp hm
    rw [genToValue, genToValueRun_none (p := p) (by rw [he]; simp [lookup]) _ _ hm] at h
    cases h
  · intro h
    rw [genToValue, evNewStruct]
    have := genToValueRun_eq (ρ := ("value", .builder) :: armEnv fs) (by simp [lookup])
      (visFields fs) vn ([], []) fun p hp => by
        have hne : "value" ≠ p.1 := fun he => h (he ▸ List.mem_map_of_mem hp)
        rw [lookup, if_neg hne, lookup_armEnv, lookup_of_mem_nodup hn (vis_mem hp).1]
        rfl
    rw [this, toValue_enumS]
    have h2 := svOfList_eq ((visFields fs).map fun p => (p.1, p.2.toValue))
    rw [svOfList] at h2
    simp only [h2, List.map_map, Function.comp_def]

/-- `patch` field by field from another enum is right exactly when no field is called
`variant_matches` or `enum_` and none that is patched is called `new_value`; otherwise it does not
compile. -/
theorem C69_patch_iff (E : Env) (v : Obj) (m : Bool) :
    genPatch (patch E) Obj.field fs v m = some (if m then patchNamed E v fs else fs) ↔
      "variant_matches" ∉ fs.map (·.1) ∧ ("enum_" ∉ fs.map (·.1) ∨ visFields fs = []) ∧
        "new_value" ∉ (visFields fs).map (·.1) := by
  by_cases h1 : "variant_matches" ∈ fs.map (·.1)
  · obtain ⟨⟨k, x⟩, hm, rfl⟩ := List.mem_map.mp h1
    have : genPatch (patch E) Obj.field fs v m = none := by
      simp only [genPatch, lookup_bound hn hm]
    rw [this]
    simp [h1]
  · have h1' : lookup "variant_matches"
        (armEnv fs ++ [("variant_matches", .bool m), ("enum_", .src v)]) = some (.bool m) := by
      rw [lookup_free h1]; simp [lookup]
    simp only [genPatch, h1']
    by_cases h2 : visFields fs = []
    · have hid : ∀ p ∈ fs, p.2.isHidden = true := by
        intro p hp
        cases hx : p.2.isHidden with
        | true => rfl
        | false =>
          have : p ∈ visFields fs := List.mem_filter.mpr ⟨hp, by simp [hx]⟩
          rw [h2] at this; cases this
      rw [mapM_some_map (g := id) fun p hp => by simp [hid p hp]]
      have : patchNamed E v fs = fs := by
        rw [patchNamed]
        conv => rhs; rw [← List.map_id fs]
        exact List.map_congr_left fun p hp => by rw [patchO_of_hidden E (hid p hp)]; rfl
      simp [this, h2, h1]
    · by_cases h3 : "enum_" ∈ fs.map (·.1)
      · obtain ⟨⟨k, x⟩, hm, rfl⟩ := List.mem_map.mp h3
        obtain ⟨p, hp⟩ := List.exists_mem_of_ne_nil _ h2
        rw [mapM_none_of (a := p) _ (vis_mem hp).1]
        · simp [h2, h3]
        · simp [(vis_mem hp).2, genPatchStmt, lookup_bound hn hm]
      · have h3' : lookup "enum_"
            (armEnv fs ++ [("variant_matches", .bool m), ("enum_", .src v)]) = some (.src v) := by
          rw [lookup_free h3]; simp [lookup]
        by_cases h4 : "new_value" ∈ (visFields fs).map (·.1)
        · obtain ⟨p, hp, he⟩ := List.mem_map.mp h4
          rw [mapM_none_of (a := p) _ (vis_mem hp).1]
          · simp [h4]
          · simp only [(vis_mem hp).2, Bool.false_eq_true, if_false, genPatchStmt, h3', he]
            cases v.field "new_value" <;> simp [lookup]
        · rw [mapM_some_map (g := fun p => (p.1, patchO E p.2 (v.field p.1)))]
          · simp [h1, h3, h4, patchNamed]
          · intro p hp
            by_cases hh : p.2.isHidden
            · simp [hh, patchO_of_hidden]
            · have hv : p ∈ visFields fs := List.mem_filter.mpr ⟨hp, by simp [hh]⟩
              have hne : "new_value" ≠ p.1 := fun he => h4 (he ▸ List.mem_map_of_mem hv)
              simp only [hh, Bool.false_eq_true, if_false, genPatchStmt, h3', lookup, if_neg hne,
                lookup_bound hn hp]
              cases v.field p.1 <;> rfl

end

/-! ## What follows for a variant whose field `name` does not hold the name of a field -/

section
variable {hs : Nat → Option String} {fs : List (String × Obj)} (hn : (fs.map (·.1)).Nodup)
  {x : Obj} (hm : ("name", x) ∈ fs) {s : String} (hx : TextIs hs x s)
  (hs' : s ∉ (visFields fs).map (·.1))
include hn hm hx hs'

/-- No field is found by its name. -/
theorem C69_blind (n : String) : genField hs fs n = some none := by
  rw [C69_field_captured hn "" "" hm hx n]
  exact congrArg some (lookup_none_iff.mpr hs')

/-- Such a value is not equal to itself: `reflect_eq(x, x)` is `Some(false)`, however its fields
compare, unless its first field is skipped. -/
theorem C69_not_equal_to_itself (t vn : String)
    (hne : (Obj.enumS (.derived t) vn fs).namedIter ≠ []) (eq : Obj → Obj → Option Bool) :
    eqStructVariant eq (genGet hs fs) (Obj.enumS (.derived t) vn fs).namedIter = some false := by
  cases h : (Obj.enumS (.derived t) vn fs).namedIter with
  | nil => exact absurd h hne
  | cons p r =>
    obtain ⟨k, y⟩ := p
    simp [eqStructVariant, genGet, C69_blind hn hm hx hs']

/-- Such a value converts to no type that reads a field from this variant, its own type included. -/
theorem C69_does_not_convert (conv : String → Obj → Option Obj) (dflt : String → Obj)
    {fds : List (String × Bool)} (hf : ∃ f ∈ fds, f.2 = false) :
    convStructVariant conv dflt (genGet hs fs) fds = none := by
  induction fds with
  | nil => obtain ⟨f, hf, _⟩ := hf; cases hf
  | cons d r ih =>
    obtain ⟨k, skip⟩ := d
    cases skip with
    | false => simp [convStructVariant, genGet, C69_blind hn hm hx hs']
    | true =>
      obtain ⟨f, hf, hff⟩ := hf
      rcases List.mem_cons.mp hf with rfl | hf
      · cases hff
      · simp [convStructVariant, ih ⟨f, hf, hff⟩]

/-- Patching another enum with such a value changes nothing. -/
theorem C69_patches_nothing (pat : Obj → Obj → Obj) (v : Obj) {gs gs' : List (String × Obj)} {m : Bool}
    (h : genPatch pat (fun _ => genGet hs fs) gs v m = some gs') : gs' = gs := by
  simp only [genPatch] at h
  split at h
  · rw [Option.map_eq_some_iff] at h
    obtain ⟨l, hl, rfl⟩ := h
    have : ∀ {l : List (String × Obj)} {gs : List (String × Obj)} {ρ : GEnv},
        (gs.mapM fun (p : String × Obj) => if p.2.isHidden then some p
          else genPatchStmt pat (fun _ => genGet hs fs) ρ p) = some l → l = gs := by
      intro l gs ρ
      induction gs generalizing l with
      | nil => intro h; simpa using h.symm
      | cons p r ih =>
        intro h
        rw [List.mapM_cons] at h
        have hp : ∀ y, (if p.2.isHidden then some p
            else genPatchStmt pat (fun _ => genGet hs fs) ρ p) = some y → y = p := by
          intro y hy
          split at hy
          · exact (Option.some.inj hy).symm
          · simp only [genPatchStmt, genGet, C69_blind hn hm hx hs', Option.getD_some] at hy
            split at hy
            · split at hy
              · exact (Option.some.inj hy).symm
              · cases hy
            · cases hy
        simp only [Option.bind_eq_bind, Option.bind_eq_some_iff, Option.pure_def,
          Option.some.injEq] at h
        obtain ⟨y, hy, l', hl', rfl⟩ := h
        rw [hp y hy, ih hl']
    rw [this hl]; simp
  · cases h

end

/-! ## The uses of `Enum::field` above are those of the main model -/

/-- The comparison of the main model, with `Obj.field` of the right value. -/
theorem C69_eq_model (E : Env) (tag : STag) (vn : String) (fs : List (String × Obj)) {b : Obj}
    (hk : b.variantKind = some .struct) (hv : b.variantName = some vn)
    (hl : (Obj.enumS tag vn fs).fieldsLen = b.fieldsLen) :
    reflectEq E (.enumS tag vn fs) b =
      eqStructVariant (reflectEq E) b.field (Obj.enumS tag vn fs).namedIter := by
  have hk' : b.kind = .enum := by cases b <;> simp [Obj.variantKind] at hk; rfl
  rw [reflectEq, if_pos hk', if_pos ⟨hv, hl⟩, if_pos hk]
  have hat : ∀ (g : String × Obj → Option Bool) (l : List (String × Obj)),
      (l.attach.map fun p => g p.1) = l.map g := fun g l => by
    simp
  refine (congrArg eqAll (hat (fun p => match b.field p.1 with
    | none => some false
    | some y => reflectEq E p.2 y) _)).trans ?_
  generalize (Obj.enumS tag vn fs).namedIter = l
  induction l with
  | nil => rfl
  | cons p r ih =>
    obtain ⟨k, y⟩ := p
    simp only [List.map_cons, eqStructVariant]
    cases b.field k with
    | none => rfl
    | some z =>
      dsimp only
      cases reflectEq E y z with
      | none => rfl
      | some c => cases c <;> simp [eqAll, ih]

/-- The conversion of the main model, with `Obj.field` of the source. -/
theorem C69_conv_model (E : Env) (c : Bool) (o : Obj) (fds : List FieldDef)
    (hd : (fds.map (·.name)).Nodup) :
    optAll (fds.map (convNamed E c o)) =
      convStructVariant
        (fun n x => (fds.find? fun fd => fd.name = n).bind fun fd => convField E c fd.ty x)
        (fun _ => .hidden 0) o.field (fds.map fun fd => (fd.name, fd.skip)) := by
  suffices ∀ l : List FieldDef, (∀ fd ∈ l, (fds.find? fun gd => gd.name = fd.name) = some fd) →
      optAll (l.map (convNamed E c o)) = convStructVariant
        (fun n x => (fds.find? fun fd => fd.name = n).bind fun fd => convField E c fd.ty x)
        (fun _ => .hidden 0) o.field (l.map fun fd => (fd.name, fd.skip)) by
    refine this fds fun fd hfd => ?_
    clear this
    induction fds with
    | nil => cases hfd
    | cons a r ih =>
      simp only [List.map_cons, List.nodup_cons] at hd
      rcases List.mem_cons.mp hfd with rfl | hfd
      · simp
      · have : a.name ≠ fd.name := fun he => hd.1 (he ▸ List.mem_map_of_mem hfd)
        rw [List.find?_cons_of_neg (by simpa using this)]
        exact ih hd.2 hfd
  intro l hl
  induction l with
  | nil => rfl
  | cons fd r ih =>
    have ih := ih fun g hg => hl g (List.mem_cons_of_mem _ hg)
    have hfd := hl fd (List.mem_cons_self ..)
    simp only [List.map_cons, convStructVariant, convNamed]
    cases fd.skip with
    | true => simp [optAll, ih, Option.map_eq_bind, Function.comp_def]
    | false =>
      simp only [Bool.false_eq_true, if_false]
      cases o.field fd.name with
      | none => simp [optAll]
      | some y =>
        simp only [Option.bind_some, hfd]
        cases convField E c fd.ty y with
        | none => simp [optAll]
        | some z => simp [optAll, ih, Option.map_eq_bind, Function.comp_def]

/-! ## An ordinary declaration -/

/-- `enum Shape { Named { name: String, sides: u8 } }`, the value
`Shape::Named { name: "square", sides: 4 }`. -/
def squareFields : List (String × Obj) :=
  [("name", .scalar (.string "square")), ("sides", .scalar (.int .u8 4))]

example : (squareFields.map (·.1)).Nodup := by decide
example : ("name", Obj.scalar (.string "square")) ∈ squareFields ∧
    TextIs (fun _ => none) (.scalar (.string "square")) "square" ∧
    "square" ∉ (visFields squareFields).map (·.1) :=
  ⟨by simp [squareFields], .inl rfl, by decide⟩
/-- `sides` is there at its index but not by its name. -/
example : genField (fun _ => none) squareFields "sides" = some none ∧
    genFieldAt (fun _ => none) squareFields 1 = some (some (.scalar (.int .u8 4))) :=
  ⟨rfl, rfl⟩
/-- With the text `"sides"`, asking for anything gives `sides`. -/
example (n : String) : genField (fun _ => none)
    [("name", .scalar (.string "sides")), ("sides", .scalar (.int .u8 4))] n =
      some (some (.scalar (.int .u8 4))) := rfl
/-- `enum Shape { Circle { r: u8 } }` is as it should be. -/
example : genField (fun _ => none) [("r", .scalar (.int .u8 1))] "r" =
    some (some (.scalar (.int .u8 1))) := rfl
/-- A field `name: u8` does not compile. -/
example : genField (fun _ => none) [("name", .scalar (.int .u8 1))] "name" = none := rfl
/-- A field `value` does not compile, and neither do `index` and `new_value`. -/
example : genToValue "V" [("value", .scalar (.bool true))] = none ∧
    genFieldAt (fun _ => none) [("index", .scalar (.int .u64 0))] 0 = none ∧
    genPatch (fun x _ => x) Obj.field [("new_value", .scalar (.bool true))]
      (.enumU (.derived "X") "V") true = none := ⟨rfl, rfl, rfl⟩
/-- The comparison of `square` with itself. -/
example : (Obj.enumS (.derived "Shape") "Named" squareFields).namedIter ≠ [] := by
  simp [Obj.namedIter, squareFields, Obj.isHidden]
example : ∃ f ∈ [("name", false), ("sides", false)], f.2 = false := ⟨("name", false), by simp, rfl⟩
/-- Another value of the type, patched with `square`. -/
example : genPatch (fun _ w => w) (fun _ => genGet (fun _ => none) squareFields)
    [("sides", .scalar (.int .u8 3))] (.enumS (.derived "Shape") "Named" squareFields) true =
      some [("sides", .scalar (.int .u8 3))] := rfl

end Mirror
