import Verif.Lemmas.Names
import Verif.Lemmas.Demo
import Verif.Props.TypeInfo

set_option linter.unusedSimpArgs false

/-!
# Simplified type names (C43) and pretty printing (C44)
-/

namespace Mirror

variable {E : Env}

/-! ## C43 -/

/-- C43: what is written is the text of the type with every path cut down to its last segment, and writing
fails exactly if there is no such type. -/
theorem simple_name_iff {t : SynTy} {s : String} :
    t.write = some s ↔ ∃ t', Simplifies t t' ∧ s = t'.text := by
  constructor
  · intro h
    obtain ⟨t', ht⟩ := simplifies_of_write t (by rw [h]; rfl)
    rw [write_of_simplifies ht] at h
    exact ⟨t', ht, (Option.some.inj h).symm⟩
  · rintro ⟨t', ht, rfl⟩
    exact write_of_simplifies ht

/-- C43: writing fails exactly on unsupported syntax. -/
theorem simple_name_fails_iff {t : SynTy} : t.write = none ↔ ¬ ∃ t', Simplifies t t' := by
  constructor
  · rintro h ⟨t', ht⟩; rw [write_of_simplifies ht] at h; cases h
  · intro h
    cases hw : t.write with
    | none => rfl
    | some s => exact absurd (simplifies_of_write t (by rw [hw]; rfl)) h

/-- C43: a simplified type is written as it is. -/
theorem simple_name_idempotent {t t' : SynTy} (h : Simplifies t t') : t'.write = some t'.text :=
  write_of_simplifies h.idem

/-- C43 from the name as text, if the parser gives back the type that the text is of. Missing for the full
property: names that contain `::_`, where it can fail (`simple_name_underscore_fails`). -/
theorem simple_name_text_partial {parse : String → Option SynTy} {t : SynTy} {s : String}
    (hp : parse t.text = some t) (hu : ¬ [':', ':', '_'] <:+: t.text.toList) :
    (simpleNew parse t.text).bind SynTy.write = some s ↔ ∃ t', Simplifies t t' ∧ s = t'.text := by
  unfold simpleNew
  rw [strip_id hu, String.ofList_toList, hp]
  exact simple_name_iff

/-- The path of these names, without arguments. -/
def plainPath (segs : List String) : SynTy := .path none false (segs.map fun s => .mk s .none)

theorem plainPath_text (segs : List String) : (plainPath segs).text = "::".intercalate segs := by
  have : ∀ l : List String, segTexts (l.map fun s => .mk s .none) = l := by
    intro l
    induction l with
    | nil => rfl
    | cons a l ih => simp [segTexts, SynSeg.text, SynArgs.text, ih]
  simp [plainPath, SynTy.text, this]

/-- What `::_` is removed for: scopes of unnamed constants, which appear as `_` in type names, vanish from a
path, and nothing else changes, if no other name in it begins with an underscore. -/
theorem unnamed_scopes_removed {a : String} {segs : List String} (ha : a.toList ≠ [] ∧ ':' ∉ a.toList)
    (h : ∀ s ∈ segs, s = "_" ∨ ∃ c cs, s.toList = c :: cs ∧ c ≠ '_' ∧ ':' ∉ c :: cs) :
    String.ofList (stripUnnamed (plainPath (a :: segs)).text.toList) =
      (plainPath (a :: segs.filter (· ≠ "_"))).text := by
  rw [plainPath_text, plainPath_text, strip_path a segs]
  · have key : ∀ (l : List String),
        (∀ s ∈ l, s = "_" ∨ ∃ c cs, s.toList = c :: cs ∧ c ≠ '_' ∧ ':' ∉ c :: cs) → ∀ a : String,
        a.toList ++ (l.map glue).flatten = ("::".intercalate (a :: l.filter (· ≠ "_"))).toList := by
      intro l
      induction l with
      | nil => intro _ a; simp [intercalate_one]
      | cons s l ih =>
        intro hl a
        have ih' := ih fun x hx => hl x (by simp [hx])
        rcases hl s (by simp) with rfl | ⟨c, cs, hs, hc, _⟩
        · rw [List.filter_cons_of_neg (by simp), ← ih' a]
          simp [glue]
        · have hne : s ≠ "_" := by rintro rfl; cases hs; exact hc rfl
          rw [List.filter_cons_of_pos (by simpa using hne), intercalate_cons, String.toList_append,
            String.toList_append, ← ih' s]
          have hg : glue s = ':' :: ':' :: s.toList := by
            unfold glue; rw [hs]
            split
            · rename_i h'; exact absurd (List.cons.inj h').1 hc
            · rfl
          simp [hg]
    rw [key segs h a, String.ofList_toList]
  · intro x hx
    rcases List.mem_cons.mp hx with rfl | hx
    · exact ha
    · rcases h x hx with rfl | ⟨c, cs, hs, _, hn⟩
      · exact ⟨by decide, by decide⟩
      · rw [hs]; exact ⟨by simp, hn⟩

/-- C43 fails: the name of a type that begins with an underscore, as in `a::b::_X`, is glued to the module
before it, and `bX` is printed. This holds for all such types, whatever the parser makes of other text. -/
theorem simple_name_underscore_fails {parse : String → Option SynTy} {init : List String} {b x : String}
    (hi : ∀ s ∈ init ++ [b], ∃ c cs, s.toList = c :: cs ∧ c ≠ '_' ∧ ':' ∉ c :: cs)
    (hx : ':' ∉ x.toList)
    (hp : parse (plainPath (init ++ [b ++ x])).text = some (plainPath (init ++ [b ++ x]))) :
    (simpleNew parse (plainPath (init ++ [b, "_" ++ x])).text).bind SynTy.write = some (b ++ x) ∧
      b ++ x ≠ "_" ++ x := by
  have hb := hi b (by simp)
  obtain ⟨c, cs, hbl, hc, _⟩ := hb
  refine ⟨?_, fun he => ?_⟩
  · have hs : String.ofList (stripUnnamed (plainPath (init ++ [b, "_" ++ x])).text.toList) =
        (plainPath (init ++ [b ++ x])).text := by
      have hg : glue ("_" ++ x) = x.toList := by
        unfold glue; rw [String.toList_append]; rfl
      have hgl : ∀ s ∈ init ++ [b], glue s = ':' :: ':' :: s.toList := by
        intro s hs
        obtain ⟨c, cs, hl, hc, _⟩ := hi s hs
        unfold glue; rw [hl]
        split
        · rename_i h'; exact absurd (List.cons.inj h').1 hc
        · rfl
      have hcat : ∀ (l : List String) (a : String), ("::".intercalate (a :: l)).toList =
          a.toList ++ (l.map fun s => ':' :: ':' :: s.toList).flatten := by
        intro l
        induction l with
        | nil => intro a; simp [intercalate_one]
        | cons r l ih =>
          intro a
          rw [intercalate_cons, String.toList_append, String.toList_append, ih]
          simp
      have hu : ("_" ++ x).toList ≠ [] ∧ ':' ∉ ("_" ++ x).toList := by
        rw [String.toList_append]; exact ⟨by simp, by simp [hx]⟩
      have hok : ∀ s ∈ init ++ [b, "_" ++ x], s.toList ≠ [] ∧ ':' ∉ s.toList := by
        intro s hs
        by_cases h' : s ∈ init ++ [b]
        · obtain ⟨c, cs, hl, _, hn⟩ := hi s h'; rw [hl]; exact ⟨by simp, hn⟩
        · have : s = "_" ++ x := by simp at hs h'; rcases hs with h | h | h <;> simp_all
          rw [this]; exact hu
      rw [plainPath_text, plainPath_text]
      cases init with
      | nil =>
        rw [List.nil_append, List.nil_append, strip_path _ _ hok]
        simp [hg, intercalate_one, String.ofList_append, String.ofList_toList]
      | cons a l =>
        rw [List.cons_append, List.cons_append, strip_path _ _ (by simpa using hok)]
        have : l.map glue = l.map fun s => ':' :: ':' :: s.toList :=
          List.map_congr_left fun s hs => hgl s (by simp [hs])
        rw [← String.toList_inj, String.toList_ofList, hcat]
        simp [hg, this, hgl b (by simp)]
    unfold simpleNew
    rw [hs, hp, Option.bind_some]
    have : plainPath (init ++ [b ++ x]) =
        .path none false (init.map (fun s => .mk s .none) ++ [.mk (b ++ x) .none]) := by
      simp [plainPath]
    rw [this, simple_name_iff]
    exact ⟨_, .path false _ _ _ _ .none, by simp [SynTy.text, segTexts, SynSeg.text, SynArgs.text]⟩
  · have := congrArg String.toList he
    rw [String.toList_append, String.toList_append, hbl] at this
    exact hc (List.cons.inj this).1

/-! ## Concrete cases -/

/-- `core::option::Option<[&'a mut alloc::vec::Vec<u8>; 3]>`. -/
def demoSyn : SynTy :=
  .path none false [.mk "core" .none, .mk "option" .none, .mk "Option" (.angle [.ty (.array
    (.ref (some "a") true (.path none false [.mk "alloc" .none, .mk "vec" .none,
      .mk "Vec" (.angle [.ty (plainPath ["u8"])])])) (.lit (.int "3")))])]

example : demoSyn.text = "core::option::Option<[&'a mut alloc::vec::Vec<u8>; 3]>" ∧
    demoSyn.write = some "Option<[&mut Vec<u8>; 3]>" := ⟨rfl, rfl⟩

/-- A one element tuple keeps its comma; a function pointer inside is not supported. -/
example : (SynTy.tuple [plainPath ["a", "B"]]).write = some "(B,)" ∧
    (SynTy.tuple [plainPath ["a", "B"], .other "fn() -> i32"]).write = none := ⟨rfl, rfl⟩

/-- `m::_::n::T` is read as `m::n::T`. -/
example : String.ofList (stripUnnamed (plainPath ["m", "_", "n", "T"]).text.toList) = "m::n::T" := by
  have := unnamed_scopes_removed (a := "m") (segs := ["_", "n", "T"]) ⟨by decide, by decide⟩ (by
    intro s hs
    simp only [List.mem_cons, List.not_mem_nil, or_false] at hs
    rcases hs with rfl | rfl | rfl
    · exact .inl rfl
    · exact .inr ⟨'n', [], rfl, by decide, by decide⟩
    · exact .inr ⟨'T', [], rfl, by decide, by decide⟩)
  rw [this]; rfl

/-- A type `_Foo` in the module `shapes` is printed as `shapesFoo`. -/
example (parse : String → Option SynTy)
    (hp : parse "shapesFoo" = some (plainPath ["shapesFoo"])) :
    (simpleNew parse "shapes::_Foo").bind SynTy.write = some "shapesFoo" :=
  (simple_name_underscore_fails (init := []) (b := "shapes") (x := "Foo")
    (by
      intro s hs
      simp at hs; subst hs
      exact ⟨'s', "hapes".toList, rfl, by decide, by decide⟩) (by decide) hp).1

end Mirror
