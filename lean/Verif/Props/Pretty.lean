import Verif.Lemmas.Names
import Verif.Lemmas.Demo
import Verif.Props.Names
import Verif.Props.TypeInfo

set_option linter.unusedSimpArgs false

/-!
# Pretty printing (C44)
-/

namespace Mirror

variable {E : Env} {nm : Ty → Except PrintErr String} {ty : Ty → String}

/-- Types referred to by a node are in the graph, so their names can be asked for. -/
theorem typeFmt_member (hD : DeclsOK E) {fuel t d} (h : describe E fuel t = some d) {i n u}
    (hi : Nav d.graph d.root i) (hn : d.graph.node i = some n) (hu : u ∈ n.ids) :
    typeFmt nm d.graph (some u) = nm u := by
  obtain ⟨m, hm⟩ := descriptor_closed hD h (.step i n u hi hn hu)
  exact typeFmt_node hm

/-- Members of a described type are components of it. -/
theorem typeFmt_comp (hD : DeclsOK E) {fuel t d} (h : describe E fuel t = some d) {i u}
    (hi : Nav d.graph d.root i) (hu : u ∈ i.comps E) :
    typeFmt nm d.graph (some u.unbox) = nm u.unbox := by
  obtain ⟨v, hv, rfl⟩ := (descriptor_describes hD h hi (descriptor_closed hD h hi).choose_spec).2
  have hr : t.Reach E u := hv.trans (.step _ _ (reach_unbox v) hu)
  obtain ⟨m, hm⟩ := descriptor_closed hD h (descriptor_complete hD h hr)
  exact typeFmt_node hm

/-- The node of a described type. -/
theorem described_node (hD : DeclsOK E) {fuel t d} (h : describe E fuel t = some d) {i}
    (hi : Nav d.graph d.root i) : ∃ n, d.graph.node i = some n ∧ Describes E i n := by
  obtain ⟨n, hn⟩ := descriptor_closed hD h hi
  exact ⟨n, hn, (descriptor_describes hD h hi hn).1⟩

/-- The types of the fields of a declaration. -/
theorem mem_comps_variant {n : String} {vds : List VariantDef} {c : Bool} (hd : E.decl n = some ⟨.enum vds, c⟩)
    {vd : VariantDef} (hv : vd ∈ vds) {fd : FieldDef} (hf : fd ∈ vd.shown) :
    fd.ty ∈ (Ty.named n).comps E := by
  simp only [Ty.comps, hd, List.mem_flatMap]
  refine ⟨vd, hv, ?_⟩
  cases vd with
  | struct _ fds => exact List.mem_map.mpr ⟨fd, hf, rfl⟩
  | tuple _ fds => exact List.mem_map.mpr ⟨fd, hf, rfl⟩
  | unit => cases hf

/-- C44 for declared types: the printed text is the declaration, with every field that is not skipped and
every variant once, in order. -/
theorem pretty_declaration (hD : DeclsOK E) {fuel t d} (h : describe E fuel t = some d) {n : String}
    (hi : Nav d.graph d.root (.named n)) {body : Shape} {c : Bool} (hd : E.decl n = some ⟨body, c⟩)
    {self : String} (hs : nm (.named n) = .ok self)
    (hm : ∀ u ∈ (Ty.named n).comps E, nm u.unbox = .ok (ty u.unbox)) :
    prettyRoot nm d.graph (.named n) = .ok (declText ty self body) := by
  obtain ⟨node, hn, hdesc⟩ := described_node hD h hi
  have hf : ∀ u ∈ (Ty.named n).comps E, typeFmt nm d.graph (some u.unbox) = .ok (ty u.unbox) :=
    fun u hu => (typeFmt_comp hD h hi hu).trans (hm u hu)
  unfold prettyRoot
  rw [hn]
  cases hdesc with
  | struct _ fds c' names fields hd' hnt hl _ =>
    rw [hd] at hd'; cases hd'
    obtain ⟨r, hr, he⟩ := block_ok (nm := nm) (g := d.graph) (ty := ty) "    " "" hnt hl (by
      intro fd hfd
      refine hf fd.ty ?_
      simp only [Ty.comps, hd]
      exact List.mem_map.mpr ⟨fd, hfd, rfl⟩)
    simp only [hs]
    have hr' : (if fields.length ≠ 0 then
        (namedLines nm d.graph "    " (namedTypes names fields)).map fun r => "\n" ++ r
      else .ok "") = .ok r := by rw [← hr]; simp
    rw [hr']
    simp only [declText, ← he]
    simp only [String.append_assoc]
    congr 3
  | tupleStruct _ fds c' hd' =>
    rw [hd] at hd'; cases hd'
    simp only [hs]
    rw [unnamedItems_ok (ty := ty) _ (by
      intro u hu
      obtain ⟨fd, hfd, rfl⟩ := List.mem_map.mp hu
      refine hf fd.ty ?_
      simp only [Ty.comps, hd]
      exact List.mem_map.mpr ⟨fd, hfd, rfl⟩)]
    simp only [declText, fieldTypes, shownFields, List.map_map]
    rfl
  | enum _ vds c' vs hd' hl hv =>
    rw [hd] at hd'; cases hd'
    simp only [hs]
    have hvt := variantsText_ok (nm := nm) (g := d.graph) (ty := ty) hl hv (by
      intro vd hvd fd hfd
      exact hf fd.ty (mem_comps_variant hd hvd hfd))
    by_cases h0 : vs.length = 0
    · rw [if_neg (by simpa using h0)]
      have : vds = [] := List.eq_nil_of_length_eq_zero (by omega)
      subst this
      simp [declText, braces, String.append_assoc]
    · rw [if_pos h0, hvt]
      have : vds.isEmpty = false := by
        cases vds with
        | nil => exact absurd hl h0
        | cons => rfl
      simp only [declText, braces, this, Except.map, String.append_assoc, Bool.false_eq_true, if_false]
      congr 3

/-- C44 for the other types. -/
theorem pretty_builtin (hD : DeclsOK E) {fuel t d} (h : describe E fuel t = some d) {i : Ty}
    (hi : Nav d.graph d.root i) (hm : ∀ u ∈ i.comps E, nm u.unbox = .ok (ty u.unbox)) :
    (∀ u, i = .vec u → prettyRoot nm d.graph i = .ok ("[" ++ ty u.unbox ++ "]")) ∧
    (∀ u n, i = .array u n →
      prettyRoot nm d.graph i = .ok ("[" ++ ty u.unbox ++ "; " ++ toString n ++ "]")) ∧
    (∀ k v, i = .map k v →
      prettyRoot nm d.graph i = .ok ("[" ++ ty k.unbox ++ ": " ++ ty v.unbox ++ "]")) ∧
    (∀ ts, i = .tuple ts →
      prettyRoot nm d.graph i = .ok ("(" ++ ", ".intercalate (ts.map fun u => ty u.unbox) ++ ")")) ∧
    (∀ k, i = .scalar k → prettyRoot nm d.graph i = .ok (scalarText k)) := by
  obtain ⟨node, hn, hdesc⟩ := described_node hD h hi
  have hf : ∀ u ∈ i.comps E, typeFmt nm d.graph (some u.unbox) = .ok (ty u.unbox) :=
    fun u hu => (typeFmt_comp hD h hi hu).trans (hm u hu)
  refine ⟨?_, ?_, ?_, ?_, ?_⟩
  · rintro u rfl
    cases hdesc
    simp only [prettyRoot, hn, hf u (by simp [Ty.comps])]
  · rintro u n rfl
    cases hdesc
    simp only [prettyRoot, hn, hf u (by simp [Ty.comps])]
  · rintro k v rfl
    cases hdesc
    simp only [prettyRoot, hn, hf k (by simp [Ty.comps]), hf v (by simp [Ty.comps])]
  · rintro ts rfl
    cases hdesc
    simp only [prettyRoot, hn]
    rw [unnamedItems_ok (ty := ty) _ (by
      intro u hu
      obtain ⟨w, hw, rfl⟩ := List.mem_map.mp hu
      exact hf w (by simpa [Ty.comps] using hw))]
    simp only [List.map_map]
    rfl
  · rintro k rfl
    cases hdesc
    simp only [prettyRoot, hn]

/-- The names that are printed for a type: those of its components, and its own if it is declared or has no
components. -/
def NamesPrinted (E : Env) (i u : Ty) : Prop := u = i ∨ ∃ v ∈ i.comps E, u = v.unbox

/-- C44: printing does not panic, and an error comes from a type name that cannot be written. -/
theorem pretty_error (hD : DeclsOK E) {fuel t d} (h : describe E fuel t = some d) {i : Ty}
    (hi : Nav d.graph d.root i) {e : PrintErr} (he : prettyRoot nm d.graph i = .error e) :
    ∃ u, NamesPrinted E i u ∧ nm u = .error e := by
  obtain ⟨node, hn, hdesc⟩ := described_node hD h hi
  have hc : ∀ u ∈ i.comps E, typeFmt nm d.graph (some u.unbox) = .error e →
      ∃ u, NamesPrinted E i u ∧ nm u = .error e :=
    fun u hu h' => ⟨u.unbox, .inr ⟨u, hu, rfl⟩, (typeFmt_comp hD h hi hu).symm.trans h'⟩
  unfold prettyRoot at he
  rw [hn] at he
  cases hdesc with
  | scalar => cases he
  | nonzero | value | structValue | tupleStructValue | tupleValue | enumValue => exact ⟨_, .inl rfl, he⟩
  | vec u =>
    simp only at he
    split at he
    · rename_i e' h'; cases he; exact hc u (by simp [Ty.comps]) h'
    · cases he
  | array u m =>
    simp only at he
    split at he
    · rename_i e' h'; cases he; exact hc u (by simp [Ty.comps]) h'
    · cases he
  | map k v =>
    simp only at he
    split at he
    · rename_i e' h'; cases he; exact hc k (by simp [Ty.comps]) h'
    · split at he
      · rename_i e' h'; cases he; exact hc v (by simp [Ty.comps]) h'
      · cases he
  | tuple ts =>
    simp only at he
    split at he
    · rename_i e' h'
      cases he
      obtain ⟨u, hu, hx⟩ := (unnamedItems_inv _).1 e h'
      obtain ⟨w, hw, rfl⟩ := List.mem_map.mp hu
      exact hc w (by simpa [Ty.comps] using hw) hx
    · cases he
  | struct n fds c names fields hd hnt hl _ =>
    simp only at he
    split at he
    · rename_i e' h'; cases he; exact ⟨_, .inl rfl, h'⟩
    · split at he
      · rename_i e' h'
        cases he
        obtain ⟨fd, hfd, hx⟩ := (block_inv "    " (fun r => "\n" ++ r) hnt hl).1 e h'
        refine hc fd.ty ?_ hx
        simp only [Ty.comps, hd]
        exact List.mem_map.mpr ⟨fd, hfd, rfl⟩
      · cases he
  | tupleStruct n fds c hd =>
    simp only at he
    split at he
    · rename_i e' h'; cases he; exact ⟨_, .inl rfl, h'⟩
    · split at he
      · rename_i e' h'
        cases he
        obtain ⟨fd, hfd, hx⟩ := (items_inv fds).1 e h'
        refine hc fd.ty ?_ hx
        simp only [Ty.comps, hd]
        exact List.mem_map.mpr ⟨fd, hfd, rfl⟩
      · cases he
  | enum n vds c vs hd hl hv =>
    simp only at he
    split at he
    · rename_i e' h'; cases he; exact ⟨_, .inl rfl, h'⟩
    · split at he
      · rename_i e' h'
        cases he
        by_cases h0 : vs.length = 0
        · rw [if_neg (by simpa using h0)] at h'; cases h'
        · rw [if_pos h0] at h'
          cases hvt : variantsText nm d.graph vs with
          | ok r => rw [hvt] at h'; cases h'
          | error e' =>
            rw [hvt] at h'; cases h'
            obtain ⟨vd, hvd, fd, hfd, hx⟩ := (variantsText_inv hl hv).1 e hvt
            exact hc fd.ty (mem_comps_variant hd hvd hfd) hx
      · cases he

/-- A type name cannot be written exactly if it parses, but to unsupported syntax; it never panics. -/
theorem name_fmt_error_iff {parse : String → Option SynTy} {name : String} {e : PrintErr} :
    nameFmt parse name = .error e ↔
      e = .fmt ∧ ∃ t, simpleNew parse name = some t ∧ ¬ ∃ t', Simplifies t t' := by
  unfold nameFmt
  cases hs : simpleNew parse name with
  | none => simp
  | some t =>
    cases hw : t.write with
    | none =>
      have := simple_name_fails_iff.mp hw
      simp only [hw, Except.error.injEq, Option.some.injEq, exists_eq_left']
      exact ⟨fun h => ⟨h.symm, this⟩, fun h => h.1.symm⟩
    | some s =>
      simp only [hw, Option.some.injEq, exists_eq_left', reduceCtorEq, false_iff]
      rintro ⟨_, h⟩
      rw [simple_name_fails_iff.mpr h] at hw; cases hw

/-- C44: printing any described type does not panic. -/
theorem pretty_never_panics (hD : DeclsOK E) {fuel t d} (h : describe E fuel t = some d) {i : Ty}
    (hi : Nav d.graph d.root i) (parse : String → Option SynTy) (typeName : Ty → String) :
    prettyRoot (fun u => nameFmt parse (typeName u)) d.graph i ≠ .error .panic := by
  intro he
  obtain ⟨u, _, hu⟩ := pretty_error hD h hi he
  exact absurd (name_fmt_error_iff.mp hu).1 (by simp)

/-! ## Concrete cases -/

/-- Names of the demo types, without a parser: `simple_type_name_fmt` falls back to the full name. -/
def demoTypeName : Ty → String
  | .scalar k => scalarText k
  | .vec _ => "Vec<u8>"
  | .named n => n
  | _ => "?"

/-- `Secret`, whose field `hidden` is skipped, and `Opt`. -/
example : ∃ d d', describe demoEnv 10 (.named "Secret") = some d ∧ describe demoEnv 10 (.named "Opt") = some d' ∧
    prettyRoot (fun u => nameFmt (fun _ => none) (demoTypeName u)) d.graph (.named "Secret") =
      .ok "struct Secret {\n    a: u8,\n    b: Vec<u8>,\n}" ∧
    prettyRoot (fun u => nameFmt (fun _ => none) (demoTypeName u)) d'.graph (.named "Opt") =
      .ok "enum Opt {\n    Some(Point),\n    None,\n}" := by
  refine ⟨_, _, rfl, rfl, ?_, ?_⟩
  · exact pretty_declaration (nm := fun u => nameFmt (fun _ => none) (demoTypeName u))
      (ty := demoTypeName) demo_declsOK (fuel := 10) (t := .named "Secret") rfl .root rfl
      rfl (fun u _ => rfl)
  · exact pretty_declaration (nm := fun u => nameFmt (fun _ => none) (demoTypeName u))
      (ty := demoTypeName) demo_declsOK (fuel := 10) (t := .named "Opt") rfl .root rfl
      rfl (fun u _ => rfl)

/-- A name that parses to a function pointer makes the printer fail, without a panic. -/
example : ∃ d, describe demoEnv 10 (.vec (.named "Point")) = some d ∧
    prettyRoot (fun u => nameFmt (fun s => some (.other s)) (demoTypeName u)) d.graph (.vec (.named "Point")) =
      .error .fmt := ⟨_, rfl, rfl⟩

end Mirror
