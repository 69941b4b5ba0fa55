import Verif.Spec.Names
import Verif.Lemmas.TypeInfo

set_option linter.unusedSimpArgs false

/-!
# Lemmas: simplified type names
-/

namespace Mirror

theorem SynExpr.write_iff {e : SynExpr} {s : String} : e.write = some s ↔ e.Plain ∧ s = e.text := by
  cases e with
  | lit l =>
    cases l with
    | bool b => cases b <;> simp [SynExpr.write, SynLit.write, SynExpr.Plain, SynExpr.text, SynLit.text, eq_comm]
    | _ => simp [SynExpr.write, SynLit.write, SynExpr.Plain, SynExpr.text, SynLit.text, eq_comm]
  | other s => simp [SynExpr.write, SynExpr.Plain]

theorem intercalate_cons (sep a b : String) (l : List String) :
    sep.intercalate (a :: b :: l) = a ++ sep ++ sep.intercalate (b :: l) := by
  simp [String.intercalate_cons_cons]

theorem intercalate_one (sep a : String) : sep.intercalate [a] = a := by simp

theorem intercalate_nil (sep : String) : sep.intercalate [] = "" := by simp

theorem writeLast_append (init : List SynSeg) (s : SynSeg) : writeLast (init ++ [s]) = s.write := by
  induction init with
  | nil => simp [writeLast]
  | cons a rest ih =>
    cases rest with
    | nil => simp [writeLast]
    | cons b rest => rw [← ih]; simp [writeLast]

theorem tuple_text (ts : List SynTy) : (SynTy.tuple ts).text =
    if ts.length = 1 then "(" ++ ", ".intercalate (tyTexts ts) ++ ",)"
    else "(" ++ ", ".intercalate (tyTexts ts) ++ ")" := by
  match ts with
  | [] => simp [SynTy.text]
  | [t] => simp [SynTy.text, tyTexts]
  | a :: b :: r => simp [SynTy.text]

theorem SimplifiesAll.length {ts ts'} : SimplifiesAll ts ts' → ts.length = ts'.length
  | .nil => rfl
  | .cons _ _ _ _ _ h => by simp [h.length]

mutual
theorem write_of_simplifies {t t'} : Simplifies t t' → t.write = some t'.text
  | .array e e' len h hl => by
    have hl' := SynExpr.write_iff.mpr ⟨hl, rfl⟩
    simp [SynTy.write, write_of_simplifies h, hl', SynTy.text]
  | .path lead init ident args args' h => by
    simp [SynTy.write, writeLast_append, SynSeg.write, writeArgs_of_simplifies h, SynTy.text, segTexts,
      SynSeg.text]
  | .tuple ts ts' h => by
    rw [SynTy.write, writeElems_of_simplifies h, tuple_text, h.length]
  | .ref lt m e e' h => by
    simp [SynTy.write, write_of_simplifies h, SynTy.text]
theorem writeArgs_of_simplifies {a a'} : SimplifiesArgs a a' → a.write = some a'.text
  | .none => rfl
  | .angle as as' h => by simp [SynArgs.write, writeEach_of_simplifies h, SynArgs.text]
theorem writeElems_of_simplifies {ts ts'} : SimplifiesAll ts ts' →
    writeElems ts = some (", ".intercalate (tyTexts ts'))
  | .nil => rfl
  | .cons t t' ts ts' h hs => by
    have h1 := write_of_simplifies h
    have h2 := writeElems_of_simplifies hs
    cases hs with
    | nil => simp [writeElems, h1, tyTexts]
    | cons u u' us us' hu hus =>
      rw [writeElems, h1, h2]
      simp [tyTexts, intercalate_cons]
theorem writeEach_of_simplifies {as as'} : SimplifiesEach as as' →
    writeArgs as = some (", ".intercalate (argTexts as'))
  | .nil => rfl
  | .ty t t' as as' h hs => by
    have h1 := write_of_simplifies h
    have h2 := writeEach_of_simplifies hs
    cases hs with
    | nil => simp [writeArgs, SynArg.write, h1, argTexts, SynArg.text]
    | ty u u' us us' hu hus =>
      rw [writeArgs, SynArg.write, h1, h2]
      simp [argTexts, intercalate_cons, SynArg.text]
    | const e us us' hu hus =>
      rw [writeArgs, SynArg.write, h1, h2]
      simp [argTexts, intercalate_cons, SynArg.text]
  | .const e as as' h hs => by
    have h1 := SynExpr.write_iff.mpr ⟨h, rfl⟩
    have h2 := writeEach_of_simplifies hs
    cases hs with
    | nil => simp [writeArgs, SynArg.write, h1, argTexts, SynArg.text]
    | ty u u' us us' hu hus =>
      rw [writeArgs, SynArg.write, h1, h2]
      simp [argTexts, intercalate_cons, SynArg.text]
    | const e us us' hu hus =>
      rw [writeArgs, SynArg.write, h1, h2]
      simp [argTexts, intercalate_cons, SynArg.text]
end

mutual
theorem simplifies_of_write : (t : SynTy) → (h : t.write.isSome) → ∃ t', Simplifies t t'
  | .array e len, h => by
    rw [SynTy.write] at h
    split at h
    · cases h
    · rename_i s hs
      split at h
      · cases h
      · rename_i l hl
        obtain ⟨e', he⟩ := simplifies_of_write e (by rw [hs]; rfl)
        exact ⟨_, .array e e' len he (SynExpr.write_iff.mp hl).1⟩
  | .path (some q) lead segs, h => by rw [SynTy.write] at h; cases h
  | .path none lead segs, h => by
    rw [SynTy.write] at h
    obtain ⟨init, id, a, rfl, ha⟩ := simplifiesLast_of_write segs h
    obtain ⟨a', ha'⟩ := ha
    exact ⟨_, .path lead init id a a' ha'⟩
  | .tuple ts, h => by
    rw [SynTy.write] at h
    split at h
    · cases h
    · rename_i s hs
      obtain ⟨ts', h'⟩ := simplifiesAll_of_write ts (by rw [hs]; rfl)
      exact ⟨_, .tuple ts ts' h'⟩
  | .ref lt m e, h => by
    rw [SynTy.write] at h
    split at h
    · cases h
    · rename_i s hs
      obtain ⟨e', he⟩ := simplifies_of_write e (by rw [hs]; rfl)
      exact ⟨_, .ref lt m e e' he⟩
  | .other _, h => by rw [SynTy.write] at h; cases h
theorem simplifiesLast_of_write : (ss : List SynSeg) → (h : (writeLast ss).isSome) →
    ∃ init id a, ss = init ++ [.mk id a] ∧ ∃ a', SimplifiesArgs a a'
  | [], h => by cases h
  | [s], h => by
    rw [writeLast] at h
    obtain ⟨id, a, rfl, ha⟩ := simplifiesSeg_of_write s h
    exact ⟨[], id, a, rfl, ha⟩
  | a :: b :: ss, h => by
    rw [writeLast] at h
    obtain ⟨init, id, x, he, hx⟩ := simplifiesLast_of_write (b :: ss) h
    exact ⟨a :: init, id, x, by rw [he]; rfl, hx⟩
theorem simplifiesSeg_of_write : (s : SynSeg) → (h : s.write.isSome) →
    ∃ id a, s = .mk id a ∧ ∃ a', SimplifiesArgs a a'
  | .mk id a, h => by
    rw [SynSeg.write] at h
    split at h
    · cases h
    · rename_i s hs
      exact ⟨id, a, rfl, simplifiesArgs_of_write a (by rw [hs]; rfl)⟩
theorem simplifiesArgs_of_write : (a : SynArgs) → (h : a.write.isSome) → ∃ a', SimplifiesArgs a a'
  | .none, _ => ⟨_, .none⟩
  | .angle as, h => by
    rw [SynArgs.write] at h
    split at h
    · cases h
    · rename_i s hs
      obtain ⟨as', h'⟩ := simplifiesEach_of_write as (by rw [hs]; rfl)
      exact ⟨_, .angle as as' h'⟩
  | .paren _, h => by rw [SynArgs.write] at h; cases h
theorem simplifiesEach_of_write : (as : List SynArg) → (h : (writeArgs as).isSome) →
    ∃ as', SimplifiesEach as as'
  | [], _ => ⟨_, .nil⟩
  | [a], h => by
    rw [writeArgs] at h
    exact simplifiesArg_of_write a h [] [] .nil
  | a :: b :: rest, h => by
    rw [writeArgs] at h
    split at h
    · cases h
    · rename_i s hs
      split at h
      · cases h
      · rename_i r hr
        obtain ⟨as', h'⟩ := simplifiesEach_of_write (b :: rest) (by rw [hr]; rfl)
        exact simplifiesArg_of_write a (by rw [hs]; rfl) _ as' h'
theorem simplifiesArg_of_write : (a : SynArg) → (h : a.write.isSome) → ∀ as as', SimplifiesEach as as' →
    ∃ bs, SimplifiesEach (a :: as) bs
  | .ty t, h => by
    rw [SynArg.write] at h
    obtain ⟨t', h'⟩ := simplifies_of_write t h
    exact fun as as' hs => ⟨_, .ty t t' as as' h' hs⟩
  | .const e, h => by
    rw [SynArg.write] at h
    obtain ⟨s, hs⟩ := Option.isSome_iff_exists.mp h
    exact fun as as' h' => ⟨_, .const e as as' (SynExpr.write_iff.mp hs).1 h'⟩
  | .other _, h => by rw [SynArg.write] at h; cases h
theorem simplifiesAll_of_write : (ts : List SynTy) → (h : (writeElems ts).isSome) →
    ∃ ts', SimplifiesAll ts ts'
  | [], _ => ⟨_, .nil⟩
  | [t], h => by
    rw [writeElems] at h
    obtain ⟨t', h'⟩ := simplifies_of_write t h
    exact ⟨_, .cons t t' _ _ h' .nil⟩
  | t :: u :: rest, h => by
    rw [writeElems] at h
    split at h
    · cases h
    · rename_i s hs
      split at h
      · cases h
      · rename_i r hr
        obtain ⟨ts', h2⟩ := simplifiesAll_of_write (u :: rest) (by rw [hr]; rfl)
        obtain ⟨t', h1⟩ := simplifies_of_write t (by rw [hs]; rfl)
        exact ⟨_, .cons t t' _ _ h1 h2⟩
end

mutual
theorem Simplifies.idem {t t'} : Simplifies t t' → Simplifies t' t'
  | .array _ e' len h hl => .array e' e' len h.idem hl
  | .path _ _ ident _ args' h => .path false [] ident args' args' h.idem
  | .tuple _ ts' h => .tuple ts' ts' h.idem
  | .ref _ m _ e' h => .ref none m e' e' h.idem
theorem SimplifiesArgs.idem {a a'} : SimplifiesArgs a a' → SimplifiesArgs a' a'
  | .none => .none
  | .angle _ as' h => .angle as' as' h.idem
theorem SimplifiesAll.idem {ts ts'} : SimplifiesAll ts ts' → SimplifiesAll ts' ts'
  | .nil => .nil
  | .cons _ t' _ ts' h hs => .cons t' t' ts' ts' h.idem hs.idem
theorem SimplifiesEach.idem {as as'} : SimplifiesEach as as' → SimplifiesEach as' as'
  | .nil => .nil
  | .ty _ t' _ as' h hs => .ty t' t' as' as' h.idem hs.idem
  | .const e _ as' h hs => .const e as' as' h hs.idem
end

end Mirror

namespace Mirror

/-! ## Removing `::_` -/

theorem strip_cons_ne {c : Char} (h : c ≠ ':') (cs : List Char) :
    stripUnnamed (c :: cs) = c :: stripUnnamed cs := by
  rw [stripUnnamed]
  rintro _ h' _; exact h h'

theorem strip_append {cs : List Char} (h : ':' ∉ cs) (rest : List Char) :
    stripUnnamed (cs ++ rest) = cs ++ stripUnnamed rest := by
  induction cs with
  | nil => rfl
  | cons c cs ih =>
    rw [List.cons_append, strip_cons_ne (fun he => h (by simp [he])), ih fun h' => h (by simp [h'])]
    rfl

theorem strip_id {cs : List Char} (h : ¬ [':', ':', '_'] <:+: cs) : stripUnnamed cs = cs := by
  induction cs using stripUnnamed.induct with
  | case1 cs ih => exact absurd ⟨[], cs, rfl⟩ h
  | case2 c cs hne ih =>
    rw [stripUnnamed]
    · rw [ih fun hi => h (hi.trans (List.suffix_cons c cs).isInfix)]
    · exact hne
  | case3 => rfl

/-- A segment after the first, as it is left in the text. -/
def glue (s : String) : List Char :=
  match s.toList with
  | '_' :: cs => cs
  | cs => ':' :: ':' :: cs

theorem strip_path (s : String) (rest : List String) (h : ∀ x ∈ s :: rest, x.toList ≠ [] ∧ ':' ∉ x.toList) :
    stripUnnamed ("::".intercalate (s :: rest)).toList = s.toList ++ (rest.map glue).flatten := by
  have key : ∀ (rest : List String), (∀ x ∈ rest, x.toList ≠ [] ∧ ':' ∉ x.toList) → ∀ s : String,
      ':' ∉ s.toList →
      stripUnnamed ("::".intercalate (s :: rest)).toList = s.toList ++ (rest.map glue).flatten := by
    intro rest
    induction rest with
    | nil =>
      intro _ s hs
      have := strip_append hs []
      simp only [intercalate_one]
      simpa [stripUnnamed] using this
    | cons r rest ih =>
      intro hr s hs
      rw [intercalate_cons, String.toList_append, String.toList_append, List.append_assoc, strip_append hs]
      congr 1
      have hr1 := hr r (by simp)
      have ih' := ih (fun x hx => hr x (by simp [hx])) r hr1.2
      have hhead : ∃ c cs, r.toList = c :: cs ∧ c ≠ ':' := by
        cases hl : r.toList with
        | nil => exact absurd hl hr1.1
        | cons c cs => exact ⟨c, cs, rfl, fun he => hr1.2 (by rw [hl, he]; simp)⟩
      obtain ⟨c, cs, hl, hc⟩ := hhead
      have htl : ∃ tl, ("::".intercalate (r :: rest)).toList = c :: tl ∧
          stripUnnamed tl = cs ++ (rest.map glue).flatten := by
        have : ∃ X, ("::".intercalate (r :: rest)).toList = r.toList ++ X := by
          cases rest with
          | nil => exact ⟨[], by simp [intercalate_one]⟩
          | cons y ys =>
            exact ⟨_, by rw [intercalate_cons, String.toList_append, String.toList_append, List.append_assoc]⟩
        obtain ⟨X, hX⟩ := this
        rw [hX, hl, List.cons_append] at ih' ⊢
        rw [strip_cons_ne hc, List.cons_append] at ih'
        exact ⟨_, rfl, (List.cons.inj ih').2⟩
      obtain ⟨tl, ht, hst⟩ := htl
      rw [ht]
      have e2 : "::".toList = [':', ':'] := rfl
      rw [e2]
      by_cases hu : c = '_'
      · subst hu
        simp only [List.cons_append, List.nil_append, List.map_cons, List.flatten_cons, glue, hl]
        rw [stripUnnamed]; exact hst
      · simp only [List.cons_append, List.nil_append, List.map_cons, List.flatten_cons]
        have hg : glue r = ':' :: ':' :: c :: cs := by
          unfold glue; rw [hl]
          split
          · rename_i h'; exact absurd (List.cons.inj h').1 hu
          · rfl
        rw [hg, stripUnnamed, stripUnnamed, strip_cons_ne hc, hst]
        · rfl
        · rintro cs' _ h'; exact hc (List.cons.inj h').1
        · rintro cs' _ h'; exact hu (List.cons.inj (List.cons.inj h').2).1
  exact key rest (fun x hx => h x (by simp [hx])) s (h s (by simp)).2

end Mirror

namespace Mirror

/-! ## Pretty printing -/

theorem typeFmt_node {nm : Ty → Except PrintErr String} {g : TypeGraph} {t : Ty} {n}
    (h : g.node t = some n) : typeFmt nm g (some t) = nm t := by simp [typeFmt, h]

theorem namedLines_ok {nm : Ty → Except PrintErr String} {g : TypeGraph} {ty : Ty → String} (tab : String) :
    ∀ l : List (String × Ty), (∀ p ∈ l, typeFmt nm g (some p.2) = .ok (ty p.2)) →
    namedLines nm g tab (l.map fun p => (p.1, some p.2)) =
      .ok (String.join (l.map fun p => tab ++ p.1 ++ ": " ++ ty p.2 ++ ",\n")) := by
  intro l
  induction l with
  | nil => intro _; simp [namedLines]
  | cons p l ih =>
    intro h
    simp only [List.map_cons, namedLines]
    rw [h p (by simp), ih fun q hq => h q (by simp [hq])]
    simp [String.join_cons]

theorem namedLines_inv {nm : Ty → Except PrintErr String} {g : TypeGraph} (tab : String) :
    ∀ l : List (String × Ty),
    (∀ e, namedLines nm g tab (l.map fun p => (p.1, some p.2)) = .error e →
      ∃ p ∈ l, typeFmt nm g (some p.2) = .error e) ∧
    (∀ r, namedLines nm g tab (l.map fun p => (p.1, some p.2)) = .ok r →
      ∀ p ∈ l, ∃ s, typeFmt nm g (some p.2) = .ok s) := by
  intro l
  induction l with
  | nil => exact ⟨fun e h => by simp [namedLines] at h, fun _ _ p hp => by cases hp⟩
  | cons p l ih =>
    obtain ⟨i1, i2⟩ := ih
    simp only [List.map_cons, namedLines]
    cases hf : typeFmt nm g (some p.2) with
    | error e => exact ⟨fun e' h => ⟨p, by simp, by rw [hf]; simpa using h⟩, fun r h => by cases h⟩
    | ok s =>
      cases hn : namedLines nm g tab (l.map fun p => (p.1, some p.2)) with
      | error e =>
        refine ⟨fun e' h => ?_, fun r h => by cases h⟩
        cases h
        obtain ⟨q, hq, he⟩ := i1 e hn
        exact ⟨q, by simp [hq], he⟩
      | ok r =>
        refine ⟨fun e' h => (by cases h), fun r' _ q hq => ?_⟩
        rcases List.mem_cons.mp hq with rfl | hq
        · exact ⟨s, hf⟩
        · exact i2 r hn q hq

theorem unnamedItems_ok {nm : Ty → Except PrintErr String} {g : TypeGraph} {ty : Ty → String} :
    ∀ l : List Ty, (∀ t ∈ l, typeFmt nm g (some t) = .ok (ty t)) →
    unnamedItems nm g l = .ok (", ".intercalate (l.map ty)) := by
  intro l
  induction l with
  | nil => intro _; simp [unnamedItems]
  | cons t l ih =>
    intro h
    cases l with
    | nil => simp [unnamedItems, h t (by simp)]
    | cons u l =>
      rw [unnamedItems, h t (by simp), ih fun q hq => h q (by simp [hq])]
      simp [intercalate_cons]

theorem unnamedItems_inv {nm : Ty → Except PrintErr String} {g : TypeGraph} :
    ∀ l : List Ty,
    (∀ e, unnamedItems nm g l = .error e → ∃ t ∈ l, typeFmt nm g (some t) = .error e) ∧
    (∀ r, unnamedItems nm g l = .ok r → ∀ t ∈ l, ∃ s, typeFmt nm g (some t) = .ok s) := by
  intro l
  induction l with
  | nil => exact ⟨fun e h => by simp [unnamedItems] at h, fun _ _ p hp => by cases hp⟩
  | cons t l ih =>
    obtain ⟨i1, i2⟩ := ih
    cases l with
    | nil =>
      simp only [unnamedItems, List.mem_singleton, forall_eq]
      exact ⟨fun e h => ⟨t, rfl, h⟩, fun r h => ⟨r, h⟩⟩
    | cons u l =>
      rw [unnamedItems]
      cases hf : typeFmt nm g (some t) with
      | error e => exact ⟨fun e' h => ⟨t, by simp, by rw [hf]; simpa using h⟩, fun r h => by cases h⟩
      | ok s =>
        cases hn : unnamedItems nm g (u :: l) with
        | error e =>
          refine ⟨fun e' h => ?_, fun r h => by cases h⟩
          cases h
          obtain ⟨q, hq, he⟩ := i1 e hn
          exact ⟨q, List.mem_cons_of_mem _ hq, he⟩
        | ok r =>
          refine ⟨fun e' h => (by cases h), fun r' _ q hq => ?_⟩
          rcases List.mem_cons.mp hq with rfl | hq
          · exact ⟨s, hf⟩
          · exact i2 r hn q hq

/-- The fields of a described struct or struct variant, as (name, type). -/
def shownPairs (fds : List FieldDef) : List (String × Ty) :=
  (shownFields fds).map fun fd => (fd.name, fd.ty.unbox)

theorem namedTypes_pairs {names fields} {fds : List FieldDef}
    (h : namedTypes names fields = ((fds.filter fun fd => !fd.skip).map fun fd => (fd.name, some fd.ty.unbox))) :
    namedTypes names fields = (shownPairs fds).map fun p => (p.1, some p.2) := by
  rw [h, shownPairs, shownFields, List.map_map]; rfl

theorem mem_shownPairs {fds : List FieldDef} {p : String × Ty} :
    p ∈ shownPairs fds ↔ ∃ fd ∈ shownFields fds, p = (fd.name, fd.ty.unbox) := by
  simp [shownPairs, eq_comm]

theorem fieldLines_eq (ty : Ty → String) (tab : String) (fds : List FieldDef) :
    String.join ((shownPairs fds).map fun p => tab ++ p.1 ++ ": " ++ ty p.2 ++ ",\n") =
      fieldLines ty tab fds := by
  rw [shownPairs, List.map_map]; rfl

variable {nm : Ty → Except PrintErr String} {g : TypeGraph} {ty : Ty → String}

/-- The fields of a variant. -/
def VariantDef.shown : VariantDef → List FieldDef
  | .struct _ fds => shownFields fds
  | .tuple _ fds => shownFields fds
  | .unit _ => []

theorem block_ok {names fields} {fds : List FieldDef} (tab close : String)
    (hn : namedTypes names fields =
      ((fds.filter fun fd => !fd.skip).map fun fd => (fd.name, some fd.ty.unbox)))
    (hl : fields.length = (fds.filter fun fd => !fd.skip).length)
    (h : ∀ fd ∈ shownFields fds, typeFmt nm g (some fd.ty.unbox) = .ok (ty fd.ty.unbox)) :
    ∃ r, (if fields.length ≠ 0 then
        (namedLines nm g tab (namedTypes names fields)).map fun r => "\n" ++ r ++ close
      else .ok "") = .ok r ∧ "{" ++ r ++ "}" = braces (fieldLines ty tab fds) close (shownFields fds).isEmpty := by
  have hlen : fields.length = (shownFields fds).length := hl
  by_cases h0 : fields.length = 0
  · refine ⟨"", by rw [if_neg (by simpa using h0)], ?_⟩
    have : shownFields fds = [] := List.eq_nil_of_length_eq_zero (by omega)
    rw [this]; rfl
  · have hne : (shownFields fds).isEmpty = false := by
      cases hs : shownFields fds with
      | nil => rw [hs] at hlen; exact absurd hlen h0
      | cons => rfl
    rw [if_pos h0, namedTypes_pairs hn, namedLines_ok (ty := ty) tab (shownPairs fds) (by
      intro p hp
      obtain ⟨fd, hfd, rfl⟩ := mem_shownPairs.mp hp
      exact h fd hfd), fieldLines_eq]
    refine ⟨_, rfl, ?_⟩
    rw [hne]
    simp only [braces, ← String.append_assoc]
    rfl

theorem variantText_ok {vd : VariantDef} {v : VariantNode} (hv : DescribesVariant vd v)
    (h : ∀ fd ∈ vd.shown, typeFmt nm g (some fd.ty.unbox) = .ok (ty fd.ty.unbox)) :
    variantText nm g v = .ok (variantLines ty vd) := by
  cases hv with
  | struct n fds names fields hn hl _ =>
    obtain ⟨r, hr, he⟩ := block_ok (ty := ty) "        " "    " hn hl h
    rw [variantText, hr]
    simp only [variantLines, ← he, ← String.append_assoc]
    simp [String.append_assoc]
  | tuple n fds =>
    rw [variantText, unnamedItems_ok (ty := ty) _ (by
      intro t ht
      obtain ⟨fd, hfd, rfl⟩ := List.mem_map.mp ht
      exact h fd hfd)]
    simp only [List.map_map, variantLines, fieldTypes]
    rfl
  | unit n => rfl

theorem variantsText_ok : ∀ {vds : List VariantDef} {vs : List VariantNode}, vs.length = vds.length →
    (∀ (i : Nat) vd v, vds[i]? = some vd → vs[i]? = some v → DescribesVariant vd v) →
    (∀ vd ∈ vds, ∀ fd ∈ vd.shown, typeFmt nm g (some fd.ty.unbox) = .ok (ty fd.ty.unbox)) →
    variantsText nm g vs = .ok (String.join (vds.map (variantLines ty))) := by
  intro vds
  induction vds with
  | nil =>
    intro vs hl _ _
    cases vs with
    | nil => simp [variantsText]
    | cons => simp at hl
  | cons vd vds ih =>
    intro vs hl hd h
    cases vs with
    | nil => simp at hl
    | cons v vs =>
      rw [variantsText, variantText_ok (hd 0 vd v rfl rfl) (h vd (by simp)),
        ih (by simpa using hl) (fun i a b ha hb => hd (i + 1) a b ha hb) fun x hx => h x (by simp [hx])]
      simp [String.join_cons]

theorem block_inv {names fields} {fds : List FieldDef} (tab : String) (f : String → String)
    (hn : namedTypes names fields =
      ((fds.filter fun fd => !fd.skip).map fun fd => (fd.name, some fd.ty.unbox)))
    (hl : fields.length = (fds.filter fun fd => !fd.skip).length) :
    (∀ e, (if fields.length ≠ 0 then (namedLines nm g tab (namedTypes names fields)).map f
        else .ok "") = .error e → ∃ fd ∈ shownFields fds, typeFmt nm g (some fd.ty.unbox) = .error e) ∧
    (∀ r, (if fields.length ≠ 0 then (namedLines nm g tab (namedTypes names fields)).map f
        else .ok "") = .ok r → ∀ fd ∈ shownFields fds, ∃ s, typeFmt nm g (some fd.ty.unbox) = .ok s) := by
  have hlen : fields.length = (shownFields fds).length := hl
  obtain ⟨h1, h2⟩ := namedLines_inv (nm := nm) (g := g) tab (shownPairs fds)
  rw [namedTypes_pairs hn]
  by_cases h0 : fields.length = 0
  · rw [if_neg (by simpa using h0)]
    have hs := List.eq_nil_of_length_eq_zero (hlen.symm.trans h0)
    rw [hs]
    exact ⟨fun e h => (by cases h), fun r h fd hfd => by cases hfd⟩
  · rw [if_pos h0]
    cases hc : namedLines nm g tab ((shownPairs fds).map fun p => (p.1, some p.2)) with
    | error e =>
      refine ⟨fun e' h => ?_, fun r h => by cases h⟩
      cases h
      obtain ⟨p, hp, he⟩ := h1 e hc
      obtain ⟨fd, hfd, rfl⟩ := mem_shownPairs.mp hp
      exact ⟨fd, hfd, he⟩
    | ok r =>
      refine ⟨fun e' h => (by cases h), fun r' _ fd hfd => ?_⟩
      exact h2 r hc _ (mem_shownPairs.mpr ⟨fd, hfd, rfl⟩)

theorem items_inv (fds : List FieldDef) :
    (∀ e, unnamedItems nm g ((fds.filter fun fd => !fd.skip).map fun fd => fd.ty.unbox) = .error e →
      ∃ fd ∈ shownFields fds, typeFmt nm g (some fd.ty.unbox) = .error e) ∧
    (∀ r, unnamedItems nm g ((fds.filter fun fd => !fd.skip).map fun fd => fd.ty.unbox) = .ok r →
      ∀ fd ∈ shownFields fds, ∃ s, typeFmt nm g (some fd.ty.unbox) = .ok s) := by
  obtain ⟨h1, h2⟩ := unnamedItems_inv (nm := nm) (g := g)
    ((fds.filter fun fd => !fd.skip).map fun fd => fd.ty.unbox)
  refine ⟨fun e h => ?_, fun r h fd hfd => h2 r h _ (List.mem_map.mpr ⟨fd, hfd, rfl⟩)⟩
  obtain ⟨t, ht, he⟩ := h1 e h
  obtain ⟨fd, hfd, rfl⟩ := List.mem_map.mp ht
  exact ⟨fd, hfd, he⟩

theorem variantText_inv {vd : VariantDef} {v : VariantNode} (hv : DescribesVariant vd v) :
    (∀ e, variantText nm g v = .error e → ∃ fd ∈ vd.shown, typeFmt nm g (some fd.ty.unbox) = .error e) ∧
    (∀ r, variantText nm g v = .ok r → ∀ fd ∈ vd.shown, ∃ s, typeFmt nm g (some fd.ty.unbox) = .ok s) := by
  cases hv with
  | struct n fds names fields hn hl _ =>
    obtain ⟨h1, h2⟩ := block_inv (nm := nm) (g := g) "        " (fun r => "\n" ++ r ++ "    ") hn hl
    rw [variantText]
    split
    · rename_i e he
      exact ⟨fun e' h => by cases h; exact h1 e he, fun r h => by cases h⟩
    · rename_i r hr
      exact ⟨fun e' h => (by cases h), fun r' _ => h2 r hr⟩
  | tuple n fds =>
    obtain ⟨h1, h2⟩ := items_inv (nm := nm) (g := g) fds
    rw [variantText]
    split
    · rename_i e he
      exact ⟨fun e' h => by cases h; exact h1 e he, fun r h => by cases h⟩
    · rename_i r hr
      exact ⟨fun e' h => (by cases h), fun r' _ => h2 r hr⟩
  | unit n => exact ⟨fun e h => by simp [variantText] at h, fun r _ fd hfd => by cases hfd⟩

theorem variantsText_inv : ∀ {vds : List VariantDef} {vs : List VariantNode}, vs.length = vds.length →
    (∀ (i : Nat) vd v, vds[i]? = some vd → vs[i]? = some v → DescribesVariant vd v) →
    (∀ e, variantsText nm g vs = .error e →
      ∃ vd ∈ vds, ∃ fd ∈ vd.shown, typeFmt nm g (some fd.ty.unbox) = .error e) ∧
    (∀ r, variantsText nm g vs = .ok r →
      ∀ vd ∈ vds, ∀ fd ∈ vd.shown, ∃ s, typeFmt nm g (some fd.ty.unbox) = .ok s) := by
  intro vds
  induction vds with
  | nil =>
    intro vs hl _
    cases vs with
    | nil => exact ⟨fun e h => by simp [variantsText] at h, fun r _ vd hvd => by cases hvd⟩
    | cons => simp at hl
  | cons vd vds ih =>
    intro vs hl hd
    cases vs with
    | nil => simp at hl
    | cons v vs =>
      obtain ⟨i1, i2⟩ := ih (vs := vs) (by simpa using hl) fun i a b ha hb => hd (i + 1) a b ha hb
      obtain ⟨j1, j2⟩ := variantText_inv (nm := nm) (g := g) (hd 0 vd v rfl rfl)
      rw [variantsText]
      split
      · rename_i e he
        exact ⟨fun e' h => by cases h; exact ⟨vd, by simp, j1 e he⟩, fun r h => by cases h⟩
      · rename_i s hs
        split
        · rename_i e he
          refine ⟨fun e' h => ?_, fun r h => by cases h⟩
          cases h
          obtain ⟨x, hx, h⟩ := i1 e he
          exact ⟨x, by simp [hx], h⟩
        · rename_i r hr
          refine ⟨fun e' h => (by cases h), fun r' _ x hx => ?_⟩
          rcases List.mem_cons.mp hx with rfl | hx
          · exact j2 s hs
          · exact i2 r hr x hx

end Mirror
