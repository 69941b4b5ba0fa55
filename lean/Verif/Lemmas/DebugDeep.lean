import Std.Data.String.ToInt
import Verif.Lemmas.Interchange
import Verif.Lemmas.PatchHistory
import Verif.Lemmas.Access
import Verif.Lemmas.UnseenMore
import Verif.Spec.DebugDeep

/-!
# The `Debug` of `dyn Reflect`: lemmas
-/

set_option linter.unusedSimpArgs false

namespace Mirror

/-! ## One layer at a time -/

/-- The output of a part, from the type of the reference to it. -/
def dbgRef (E : Env) (D : Printing) (m : Option Ty) (x : Obj) : DTree :=
  match m with
  | some u => debugAs E D (some u) x
  | none => .panic

theorem attach_mapIdx {α β} (l : List α) (f : Nat → α → β) : (l.attach.mapIdx fun i x => f i x.1) = l.mapIdx f := by
  apply List.ext_getElem?
  intro i
  simp only [List.getElem?_mapIdx, List.getElem?_attach, Option.map_pmap]
  rw [Option.pmap_eq_map]

theorem attach_map {α β} (l : List α) (f : α → β) : (l.attach.map fun x => f x.1) = l.map f := by
  simp

theorem debugAs_pos {E : Env} {D : Printing} {t : Ty} {o : Obj} (h : (∃ u, t = .vec u) ∨ ∃ u n, t = .array u n) :
    debugAs E D (some t) o = .list (o.posIter.mapIdx fun i x => dbgRef E D (o.posRefTy E i x) x) := by
  rcases h with ⟨u, rfl⟩ | ⟨u, n, rfl⟩ <;>
    rw [debugAs] <;> exact congrArg DTree.list (attach_mapIdx _ fun i x => dbgRef E D (o.posRefTy E i x) x)

theorem debugAs_map {E : Env} {D : Printing} {k v : Ty} {o : Obj} :
    debugAs E D (some (.map k v)) o = .map (o.mapIter.map fun p =>
      (dbgRef E D (o.entryRefTy p.1 p.2).1 p.1, dbgRef E D (o.entryRefTy p.1 p.2).2 p.2)) := by
  rw [debugAs]
  exact congrArg DTree.map (attach_map _ fun p : Obj × Obj =>
    (dbgRef E D (o.entryRefTy p.1 p.2).1 p.1, dbgRef E D (o.entryRefTy p.1 p.2).2 p.2))

/-- The output of `reflect_debug`, from the calls it makes. -/
def dbgLayer (E : Env) (D : Printing) (o : Obj) : Dbg → DTree
  | .struct n fs => .struct n (fs.map fun p => (p.1, dbgRef E D (o.nameRefTy E p.1 p.2) p.2))
  | .tuple n fs => .tuple n (fs.mapIdx fun i x => dbgRef E D (o.posRefTy E i x) x)
  | .list xs => .list (xs.mapIdx fun i x => dbgRef E D (o.posRefTy E i x) x)
  | .map kvs => .map (kvs.map fun p =>
      (dbgRef E D (o.entryRefTy p.1 p.2).1 p.1, dbgRef E D (o.entryRefTy p.1 p.2).2 p.2))
  | .scalar s => .text (D.scalar s)
  | .text s => .text s

theorem debugAs_view {E : Env} {D : Printing} {o : Obj} {d : Dbg} (h : reflectDebug D.nameOf o = some d) :
    debugAs E D none o = dbgLayer E D o d := by
  rw [debugAs]
  split <;> rename_i h' <;> rw [h] at h' <;> cases h' <;> simp only [dbgLayer]
  · exact congrArg (DTree.struct _) (attach_map _ fun p : String × Obj => (p.1, dbgRef E D (o.nameRefTy E p.1 p.2) p.2))
  · exact congrArg (DTree.tuple _) (attach_mapIdx _ fun i x => dbgRef E D (o.posRefTy E i x) x)
  · exact congrArg DTree.list (attach_mapIdx _ fun i x => dbgRef E D (o.posRefTy E i x) x)
  · exact congrArg DTree.map (attach_map _ fun p : Obj × Obj =>
      (dbgRef E D (o.entryRefTy p.1 p.2).1 p.1, dbgRef E D (o.entryRefTy p.1 p.2).2 p.2))

/-- The calls of `reflect_debug` on each kind of value. -/
def dbgCalls (nm : Obj → String) (o : Obj) : Dbg :=
  match o with
  | .struct _ _ => .struct (nm o) o.namedIter
  | .enumS _ v _ => .struct v o.namedIter
  | .tupleStruct _ _ => .tuple (nm o) o.posIter
  | .tuple _ _ => .tuple "" o.posIter
  | .enumT _ v _ => .tuple v o.posIter
  | .enumU _ v => .text v
  | .vec _ xs => .list xs
  | .array _ xs => .list xs
  | .map _ _ kvs => .map kvs
  | .scalar s => .scalar s
  | .nonzero k n => .scalar (.int k n)
  | .hidden _ => .text (nm o)

theorem reflectDebug_calls (nm : Obj → String) (o : Obj) : reflectDebug nm o = some (dbgCalls nm o) := by
  cases o <;> simp [reflectDebug, Obj.kind, dbgCalls, Obj.variantKind, Obj.variantName, Obj.variantIter, debugNamed_eq,
    debugPos_eq, Obj.asScalar, Obj.posIter, Obj.mapIter]

theorem debugAs_none (E : Env) (D : Printing) (o : Obj) :
    debugAs E D none o = dbgLayer E D o (dbgCalls D.nameOf o) := debugAs_view (reflectDebug_calls _ _)

theorem debugAs_named {E : Env} {D : Printing} {n : String} {o : Obj} : debugAs E D (some (.named n)) o =
    if D.optOut n then debugAs E D none o else .text (D.user n o) := by
  rw [debugAs.eq_def E D (some _)]

theorem debugAs_box {E : Env} {D : Printing} {t : Ty} {o : Obj} : debugAs E D (some (.box t)) o =
    debugAs E D none o := by
  rw [debugAs.eq_def E D (some _)]

/-! ## The types of the references -/

variable {E : Env}

theorem HasTy.reflTy (hO : OrdLaws E) {t : Ty} {x : Obj} (h : HasTy E t x) :
    ∃ u, x.reflTy t = some u ∧ HasTy E u x := by
  induction h with
  | box t o _ ih => rw [Obj.reflTy]; exact ih
  | value v o hv he =>
    obtain ⟨u, hu, hx⟩ := HasTy.typeOf hO (HasTy.value (E := E) v o hv he)
    rw [Obj.reflTy, hu]
    split <;> rename_i h
    · cases h; exact ⟨_, rfl, .box _ _ hx⟩
    · cases h; exact ⟨_, rfl, .box _ _ hx⟩
    · exact ⟨u, rfl, hx⟩
  | scalar s => exact ⟨_, by rw [Obj.reflTy] <;> simp, .scalar s⟩
  | nonzero k n h => exact ⟨_, by rw [Obj.reflTy] <;> simp, .nonzero k n h⟩
  | struct n fds c fs a b c' d => exact ⟨_, by rw [Obj.reflTy] <;> simp, .struct n fds c fs a b c' d⟩
  | tupleStruct n fds c fs a b c' d => exact ⟨_, by rw [Obj.reflTy] <;> simp, .tupleStruct n fds c fs a b c' d⟩
  | enumS n vds c vn fds fs a b c' d e => exact ⟨_, by rw [Obj.reflTy] <;> simp, .enumS n vds c vn fds fs a b c' d e⟩
  | enumT n vds c vn fds fs a b c' d e => exact ⟨_, by rw [Obj.reflTy] <;> simp, .enumT n vds c vn fds fs a b c' d e⟩
  | enumU n vds c vn a b => exact ⟨_, by rw [Obj.reflTy] <;> simp, .enumU n vds c vn a b⟩
  | tuple ts fs a b => exact ⟨_, by rw [Obj.reflTy] <;> simp, .tuple ts fs a b⟩
  | vec t xs a => exact ⟨_, by rw [Obj.reflTy] <;> simp, .vec t xs a⟩
  | array t xs a => exact ⟨_, by rw [Obj.reflTy] <;> simp, .array t xs a⟩
  | map kt vt kvs a b c => exact ⟨_, by rw [Obj.reflTy] <;> simp, .map kt vt kvs a b c⟩
  | structValue ns fs o a b => exact ⟨_, by rw [Obj.reflTy] <;> simp, .structValue ns fs o a b⟩
  | tupleStructValue fs o a b => exact ⟨_, by rw [Obj.reflTy] <;> simp, .tupleStructValue fs o a b⟩
  | tupleValue fs o a b => exact ⟨_, by rw [Obj.reflTy] <;> simp, .tupleValue fs o a b⟩
  | enumValueS v ns fs o a b => exact ⟨_, by rw [Obj.reflTy] <;> simp, .enumValueS v ns fs o a b⟩
  | enumValueT v fs o a b => exact ⟨_, by rw [Obj.reflTy] <;> simp, .enumValueT v fs o a b⟩
  | enumValueU v o a => exact ⟨_, by rw [Obj.reflTy] <;> simp, .enumValueU v o a⟩

theorem takeWhile_get {α} {q : α → Bool} {l : List α} {i : Nat} {x : α} (h : (l.takeWhile q)[i]? = some x) :
    l[i]? = some x ∧ q x = true := by
  refine ⟨?_, ?_⟩
  · obtain ⟨r, hr⟩ := List.takeWhile_prefix (l := l) q
    rw [← hr, List.getElem?_append_left (List.getElem?_eq_some_iff.mp h).1]
    exact h
  · have := List.all_takeWhile (p := q) (l := l)
    rw [List.all_eq_true] at this
    exact this x (List.mem_of_getElem? h)

theorem takeWhile_of_get {α} {q : α → Bool} : ∀ {l : List α} {i : Nat} {x : α}, l[i]? = some x → q x = true →
    (∀ j < i, ∃ y, l[j]? = some y ∧ q y = true) → (l.takeWhile q)[i]? = some x
  | [], _, _, h, _, _ => by simp at h
  | a :: l, 0, x, h, hq, _ => by
    simp at h; subst h; simp [List.takeWhile_cons, hq]
  | a :: l, i + 1, x, h, hq, hj => by
    have h0 : q a = true := by
      obtain ⟨y, hy, hqy⟩ := hj 0 (by omega)
      simp at hy; subst hy; exact hqy
    simp only [List.takeWhile_cons, h0, if_true, List.getElem?_cons_succ] at h ⊢
    exact takeWhile_of_get h hq fun j hji => by simpa using hj (j + 1) (by omega)

theorem value_posRef (hO : OrdLaws E) {v : Value} (hv : v.WF) {i : Nat} {x : Obj}
    (hx : v.toObj.posIter[i]? = some x) : ∃ u, v.toObj.posRefTy E i x = some u ∧ HasTy E u x := by
  have key : ∀ {fs : List Value}, (∀ w ∈ fs, w.WF) → (fs.map Value.toObj)[i]? = some x →
      ∃ u, x.reflTy .value = some u ∧ HasTy E u x := by
    intro fs hw h
    rw [List.getElem?_map, Option.map_eq_some_iff] at h
    obtain ⟨w, hw', rfl⟩ := h
    exact HasTy.reflTy hO (.value w _ (hw w (List.mem_of_getElem? hw')) rfl)
  cases hv with
  | scalar s => simp [Value.toObj, Obj.posIter] at hx
  | struct => simp [Value.toObj, Obj.posIter] at hx
  | enumS => simp [Value.toObj, Obj.posIter] at hx
  | enumU => simp [Value.toObj, Obj.posIter] at hx
  | map => simp [Value.toObj, Obj.posIter] at hx
  | enumT v fs hw => simp only [Value.toObj, Obj.posIter, Obj.posRefTy] at hx ⊢; exact key hw (takeWhile_get hx).1
  | tupleStruct fs hw => simp only [Value.toObj, Obj.posIter, Obj.posRefTy] at hx ⊢; exact key hw (takeWhile_get hx).1
  | tuple fs hw => simp only [Value.toObj, Obj.posIter, Obj.posRefTy] at hx ⊢; exact key hw (takeWhile_get hx).1
  | list xs hw => simp only [Value.toObj, Obj.posIter, Obj.posRefTy] at hx ⊢; exact key hw hx

theorem HasTy.posRef (hD : DeclsOK E) (hO : OrdLaws E) {t : Ty} {o : Obj} (h : HasTy E t o) {i : Nat} {x : Obj}
    (hx : o.posIter[i]? = some x) : ∃ u, o.posRefTy E i x = some u ∧ HasTy E u x := by
  induction h with
  | box t o _ ih => exact ih hx
  | scalar s => simp [Obj.posIter] at hx
  | nonzero => simp [Obj.posIter] at hx
  | struct n fds c fs => cases hx
  | enumS => cases hx
  | enumU => simp [Obj.posIter] at hx
  | map => simp [Obj.posIter] at hx
  | tupleStruct n fds c fs hd hl h3 h4 =>
    obtain ⟨hx, hh⟩ := takeWhile_get hx
    obtain ⟨fd, hfd⟩ := align_pos hl hx
    have hs : fd.skip = false := by
      cases hs : fd.skip with
      | false => rfl
      | true => rw [h3 i fd x hfd hx hs] at hh; cases hh
    simpa [Obj.posRefTy, Env.tupleFieldTy, hd, hfd] using HasTy.reflTy hO (h4 i fd x hfd hx hs)
  | enumT n vds c vn fds fs hd hv hl h3 h4 =>
    obtain ⟨hx, hh⟩ := takeWhile_get hx
    obtain ⟨fd, hfd⟩ := align_pos hl hx
    have hs : fd.skip = false := by
      cases hs : fd.skip with
      | false => rfl
      | true => rw [h3 i fd x hfd hx hs] at hh; cases hh
    have hf : vds.find? (fun vd => vd.name == vn) = some (.tuple vn fds) :=
      find_variant (hD.variant_names n vds c hd) hv
    simpa [Obj.posRefTy, Env.variantAtTy, hd, hf, hfd] using HasTy.reflTy hO (h4 i fd x hfd hx hs)
  | tuple ts fs hl ht =>
    obtain ⟨hx, hh⟩ := takeWhile_get hx
    obtain ⟨u, hu⟩ := align_pos hl hx
    exact ⟨u, hu, ht i u x hu hx⟩
  | vec t xs hx' => exact HasTy.reflTy hO (hx' x (List.mem_of_getElem? hx))
  | array t xs hx' => exact HasTy.reflTy hO (hx' x (List.mem_of_getElem? hx))
  | value v o hv he => subst he; exact value_posRef hO hv hx
  | structValue ns fs o hv he => subst he; exact value_posRef hO hv hx
  | tupleStructValue fs o hv he => subst he; exact value_posRef hO hv hx
  | tupleValue fs o hv he => subst he; exact value_posRef hO hv hx
  | enumValueS v ns fs o hv he => subst he; exact value_posRef hO hv hx
  | enumValueT v fs o hv he => subst he; exact value_posRef hO hv hx
  | enumValueU v o he => subst he; exact value_posRef hO (.enumU v) hx

theorem HasTy.entryRef (hO : OrdLaws E) {t : Ty} {o : Obj} (h : HasTy E t o) {p : Obj × Obj}
    (hp : p ∈ o.mapIter) : (∃ u, (o.entryRefTy p.1 p.2).1 = some u ∧ HasTy E u p.1) ∧
      ∃ u, (o.entryRefTy p.1 p.2).2 = some u ∧ HasTy E u p.2 := by
  have val : ∀ {v : Value}, v.WF → p ∈ v.toObj.mapIter →
      (∃ u, (v.toObj.entryRefTy p.1 p.2).1 = some u ∧ HasTy E u p.1) ∧
      ∃ u, (v.toObj.entryRefTy p.1 p.2).2 = some u ∧ HasTy E u p.2 := by
    intro v hv hp
    cases hv with
    | map kvs hs hk hv =>
      simp only [Value.toObj, Obj.mapIter, List.mem_map] at hp
      obtain ⟨q, hq, rfl⟩ := hp
      simp only [Value.toObj, Obj.entryRefTy]
      exact ⟨HasTy.reflTy hO (.value _ _ (hk q hq) rfl), HasTy.reflTy hO (.value _ _ (hv q hq) rfl)⟩
    | _ => simp [Value.toObj, Obj.mapIter] at hp
  induction h with
  | box t o _ ih => exact ih hp
  | map kt vt kvs hs hk hv =>
    exact ⟨HasTy.reflTy hO (hk p hp), HasTy.reflTy hO (hv p hp)⟩
  | value v o hv he => subst he; exact val hv hp
  | structValue ns fs o hv he => subst he; exact val hv hp
  | tupleStructValue fs o hv he => subst he; exact val hv hp
  | tupleValue fs o hv he => subst he; exact val hv hp
  | enumValueS v ns fs o hv he => subst he; exact val hv hp
  | enumValueT v fs o hv he => subst he; exact val hv hp
  | enumValueU v o he => subst he; exact val (.enumU v) hp
  | _ => simp [Obj.mapIter] at hp

theorem find_field {fds : List FieldDef} (h : (fds.map (·.name)).Nodup) {fd : FieldDef} (hm : fd ∈ fds) :
    fds.find? (fun d => d.name == fd.name) = some fd := by
  cases hf : fds.find? (fun d => d.name == fd.name) with
  | none => exact absurd (List.find?_eq_none.mp hf fd hm) (by simp)
  | some d =>
    rw [fieldDef_unique h (List.mem_of_find?_eq_some hf) hm (by simpa using List.find?_some hf)]

theorem HasTy.nameRef (hD : DeclsOK E) (hO : OrdLaws E) {t : Ty} {o : Obj} (h : HasTy E t o) {p : String × Obj}
    (hp : p ∈ o.namedIter) : ∃ u, o.nameRefTy E p.1 p.2 = some u ∧ HasTy E u p.2 := by
  have val : ∀ {v : Value}, v.WF → p ∈ v.toObj.namedIter →
      ∃ u, v.toObj.nameRefTy E p.1 p.2 = some u ∧ HasTy E u p.2 := by
    intro v hv hp
    have key : ∀ {ns : List String} {fs : List (String × Value)}, (∀ n, n ∈ ns ↔ n ∈ fs.map (·.1)) → (∀ p ∈ fs, p.2.WF) →
        p ∈ dynIter (fs.map fun q => (q.1, q.2.toObj)) ns → HasTy E .value p.2 := by
      intro ns fs hn hw hp
      have hp := (mem_dynIter (n := p.1) (x := p.2) (fun n h => by
        have := (hn n).mp h
        simpa [List.map_map, Function.comp_def] using this)).mp hp
      have := lookup_mem hp.2
      obtain ⟨q, hq, he⟩ := List.mem_map.mp this
      exact .value q.2 _ (hw q hq) (by have := (Prod.mk.inj he).2; simpa using this.symm)
    cases hv with
    | struct ns fs hn hs hw =>
      simp only [Value.toObj, Obj.namedIter] at hp
      exact ⟨.value, by simp [Value.toObj, Obj.nameRefTy], key hn hw hp⟩
    | enumS v ns fs hn hs hw =>
      simp only [Value.toObj, Obj.namedIter] at hp
      exact ⟨.value, by simp [Value.toObj, Obj.nameRefTy], key hn hw hp⟩
    | _ => simp [Value.toObj, Obj.namedIter] at hp
  induction h with
  | box t o _ ih => exact ih hp
  | struct n fds c fs hd hn h3 h4 =>
    obtain ⟨hm, hh⟩ := List.mem_filter.mp hp
    obtain ⟨i, hi⟩ := List.getElem?_of_mem hm
    obtain ⟨fd, hfd, he⟩ := align_named hn hi
    have hs : fd.skip = false := by
      cases hs : fd.skip with
      | false => rfl
      | true => rw [h3 i fd p hfd hi hs] at hh; cases hh
    have hf := find_field (hD.struct_names n fds c hd) (List.mem_of_getElem? hfd)
    rw [he] at hf
    exact ⟨fd.ty, by simp [Obj.nameRefTy, Env.structFieldTy, hd, hf], h4 i fd p hfd hi hs⟩
  | enumS n vds c vn fds fs hd hv hn h3 h4 =>
    simp only [Obj.namedIter] at hp
    obtain ⟨i, hi⟩ := List.getElem?_of_mem hp
    obtain ⟨hi, hh⟩ := takeWhile_get hi
    obtain ⟨fd, hfd, he⟩ := align_named hn hi
    have hs : fd.skip = false := by
      cases hs : fd.skip with
      | false => rfl
      | true => rw [h3 i fd p hfd hi hs] at hh; cases hh
    have hf := find_field (hD.variant_fields n vds c vn fds hd hv) (List.mem_of_getElem? hfd)
    rw [he] at hf
    have hfv : vds.find? (fun vd => vd.name == vn) = some (.struct vn fds) :=
      find_variant (hD.variant_names n vds c hd) hv
    simpa [Obj.nameRefTy, Env.variantFieldTy, hd, hfv, hf] using HasTy.reflTy hO (h4 i fd p hfd hi hs)
  | value v o hv he => subst he; exact val hv hp
  | structValue ns fs o hv he => subst he; exact val hv hp
  | tupleStructValue fs o hv he => subst he; exact val hv hp
  | tupleValue fs o hv he => subst he; exact val hv hp
  | enumValueS v ns fs o hv he => subst he; exact val hv hp
  | enumValueT v fs o hv he => subst he; exact val hv hp
  | enumValueU v o he => subst he; exact val (.enumU v) hp
  | _ => simp [Obj.namedIter] at hp

/-! ## No panics -/

theorem Value.debug_noPanic (D : Printing) (v : Value) : ∀ b, (v.debug D b).NoPanic := by
  induction v using Value.ind with
  | h v ih =>
  intro b
  have outer : ∀ {n : String} {d : DTree}, d.NoPanic → (if b then DTree.tuple n [d] else d).NoPanic := by
    intro n d h
    split
    · exact .tuple _ _ (by simpa using h)
    · exact h
  have names : ∀ ns : List String, (DTree.list (ns.map fun n => .text (D.str n))).NoPanic := by
    intro ns
    refine .list _ fun x hx => ?_
    obtain ⟨n, _, rfl⟩ := List.mem_map.mp hx
    exact .text _
  have pos : ∀ {fs : List Value}, (∀ x ∈ fs, ∀ b, (x.debug D b).NoPanic) →
      (DTree.list (fs.map fun x => x.debug D true)).NoPanic := by
    intro fs h
    refine .list _ fun x hx => ?_
    obtain ⟨y, hy, rfl⟩ := List.mem_map.mp hx
    exact h y hy true
  have named : ∀ {fs : List (String × Value)}, (∀ p ∈ fs, ∀ b, (p.2.debug D b).NoPanic) →
      (DTree.map (fs.map fun q => (.text (D.str q.1), q.2.debug D true))).NoPanic := by
    intro fs h
    refine .map _ (fun p hp => ?_) fun p hp => ?_ <;> obtain ⟨y, hy, rfl⟩ := List.mem_map.mp hp
    · exact .text _
    · exact h y hy true
  cases v <;> rw [Value.debug] <;> apply outer
  case scalar => exact .text _
  case struct ns fs =>
    refine .struct _ _ fun p hp => ?_
    simp only [List.mem_cons, List.not_mem_nil, or_false] at hp
    rcases hp with rfl | rfl
    · exact names ns
    · exact named fun p hp b => ih _ (by have := sizeOf_snd_lt_of_mem hp; simp; omega) b
  case enumS v ns fs =>
    refine .struct _ _ fun p hp => ?_
    simp only [List.mem_cons, List.not_mem_nil, or_false] at hp
    rcases hp with rfl | rfl
    · exact .text _
    · refine .tuple _ _ fun x hx => ?_
      simp only [List.mem_cons, List.not_mem_nil, or_false] at hx
      subst hx
      refine .struct _ _ fun p hp => ?_
      simp only [List.mem_cons, List.not_mem_nil, or_false] at hp
      rcases hp with rfl | rfl
      · exact names ns
      · exact named fun p hp b => ih _ (by have := sizeOf_snd_lt_of_mem hp; simp; omega) b
  case enumT v fs =>
    refine .struct _ _ fun p hp => ?_
    simp only [List.mem_cons, List.not_mem_nil, or_false] at hp
    rcases hp with rfl | rfl
    · exact .text _
    · refine .tuple _ _ fun x hx => ?_
      simp only [List.mem_cons, List.not_mem_nil, or_false] at hx
      subst hx
      refine .struct _ _ fun p hp => ?_
      simp only [List.mem_cons, List.not_mem_nil, or_false] at hp
      subst hp
      exact pos fun x hx b => ih _ (by have := List.sizeOf_lt_of_mem hx; simp; omega) b
  case enumU v =>
    refine .struct _ _ fun p hp => ?_
    simp only [List.mem_cons, List.not_mem_nil, or_false] at hp
    rcases hp with rfl | rfl <;> exact .text _
  case tupleStruct fs =>
    refine .struct _ _ fun p hp => ?_
    simp only [List.mem_cons, List.not_mem_nil, or_false] at hp
    subst hp
    refine .struct _ _ fun p hp => ?_
    simp only [List.mem_cons, List.not_mem_nil, or_false] at hp
    subst hp
    exact pos fun x hx b => ih _ (by have := List.sizeOf_lt_of_mem hx; simp; omega) b
  case tuple fs =>
    refine .struct _ _ fun p hp => ?_
    simp only [List.mem_cons, List.not_mem_nil, or_false] at hp
    subst hp
    exact pos fun x hx b => ih _ (by have := List.sizeOf_lt_of_mem hx; simp; omega) b
  case list fs => exact pos fun x hx b => ih _ (by have := List.sizeOf_lt_of_mem hx; simp; omega) b
  case map kvs =>
    refine .map _ (fun p hp => ?_) fun p hp => ?_ <;> obtain ⟨y, hy, rfl⟩ := List.mem_map.mp hp
    · exact ih _ (by have := sizeOf_fst_lt_of_mem hy; simp; omega) true
    · exact ih _ (by have := sizeOf_snd_lt_of_mem hy; simp; omega) true

theorem HasTy.debug_noPanic (hD : DeclsOK E) (hO : OrdLaws E) (D : Printing) : ∀ (n : Nat) (t : Ty) (o : Obj),
    sizeOf o < n → HasTy E t o → (debugAs E D none o).NoPanic ∧ (debugAs E D (some t) o).NoPanic
  | 0, _, _, h, _ => by omega
  | n + 1, t, o, hn, h => by
    have ref : ∀ {m : Option Ty} {x : Obj}, sizeOf x < sizeOf o → (∃ u, m = some u ∧ HasTy E u x) →
        (dbgRef E D m x).NoPanic := by
      rintro m x hs ⟨u, rfl, hx⟩
      exact (HasTy.debug_noPanic hD hO D n u x (by omega) hx).2
    have hpos : ∀ x ∈ o.posIter.mapIdx fun i x => dbgRef E D (o.posRefTy E i x) x, x.NoPanic := by
      intro x hx
      obtain ⟨i, hi⟩ := List.getElem?_of_mem hx
      rw [List.getElem?_mapIdx, Option.map_eq_some_iff] at hi
      obtain ⟨y, hy, rfl⟩ := hi
      exact ref (Obj.posIter_smaller (List.mem_of_getElem? hy)) (h.posRef hD hO hy)
    have hnam : ∀ p ∈ o.namedIter.map fun p => (p.1, dbgRef E D (o.nameRefTy E p.1 p.2) p.2), p.2.NoPanic := by
      intro x hx
      obtain ⟨y, hy, rfl⟩ := List.mem_map.mp hx
      exact ref (Obj.namedIter_size hy) (h.nameRef hD hO hy)
    have hmap : (DTree.map (o.mapIter.map fun p =>
        (dbgRef E D (o.entryRefTy p.1 p.2).1 p.1, dbgRef E D (o.entryRefTy p.1 p.2).2 p.2))).NoPanic := by
      refine .map _ (fun p hp => ?_) fun p hp => ?_ <;> obtain ⟨y, hy, rfl⟩ := List.mem_map.mp hp
      · exact ref (Obj.mapIter_smaller hy).1 (h.entryRef hO hy).1
      · exact ref (Obj.mapIter_smaller hy).2 (h.entryRef hO hy).2
    have view : (debugAs E D none o).NoPanic := by
      rw [debugAs_none]
      cases o <;> simp only [dbgCalls, dbgLayer]
      case struct => exact .struct _ _ hnam
      case enumS => exact .struct _ _ hnam
      case tupleStruct => exact .tuple _ _ hpos
      case tuple => exact .tuple _ _ hpos
      case enumT => exact .tuple _ _ hpos
      case vec => exact .list _ hpos
      case array => exact .list _ hpos
      case map => exact hmap
      all_goals exact .text _
    refine ⟨view, ?_⟩
    cases t with
    | scalar k =>
      generalize hT : Ty.scalar k = T at h
      cases h <;> try (simp only [reduceCtorEq] at hT; done)
      rw [debugAs]; exact .text _
    | nonzero k =>
      generalize hT : Ty.nonzero k = T at h
      cases h <;> try (simp only [reduceCtorEq] at hT; done)
      rw [debugAs]; exact .text _
    | named n =>
      rw [debugAs_named]
      split
      · exact view
      · exact .text _
    | tuple ts => rw [debugAs]; exact .text _
    | vec u => rw [debugAs_pos (.inl ⟨_, rfl⟩)]; exact .list _ hpos
    | array u n => rw [debugAs_pos (.inr ⟨_, _, rfl⟩)]; exact .list _ hpos
    | map k v => rw [debugAs_map]; exact hmap
    | box u => rw [debugAs_box]; exact view
    | value => rw [debugAs]; exact Value.debug_noPanic D _ _
    | structValue => rw [debugAs]; exact Value.debug_noPanic D _ _
    | tupleStructValue => rw [debugAs]; exact Value.debug_noPanic D _ _
    | tupleValue => rw [debugAs]; exact Value.debug_noPanic D _ _
    | enumValue => rw [debugAs]; exact Value.debug_noPanic D _ _

/-! ## Skipped fields -/

theorem reset_reflTy (x : Obj) : ∀ t : Ty, x.reset.reflTy t = x.reflTy t
  | .box t => by rw [Obj.reflTy, Obj.reflTy]; exact reset_reflTy x t
  | .value => by rw [Obj.reflTy, Obj.reflTy, reset_typeOf]
  | .scalar _ | .nonzero _ | .named _ | .tuple _ | .vec _ | .array _ _ | .map _ _ | .structValue
  | .tupleStructValue | .tupleValue | .enumValue => by rw [Obj.reflTy, Obj.reflTy] <;> simp

theorem reset_nameRefTy (o : Obj) (n : String) (x : Obj) : o.reset.nameRefTy E n x.reset = o.nameRefTy E n x := by
  have : x.reset.reflTy = x.reflTy := funext (reset_reflTy x)
  cases o with
  | struct tag fs => cases tag <;> simp only [Obj.reset, Obj.nameRefTy]
  | enumS tag v fs => cases tag <;> simp only [Obj.reset, Obj.nameRefTy, this]
  | _ => simp only [Obj.reset, Obj.nameRefTy]

theorem reset_posRefTy (o : Obj) (i : Nat) (x : Obj) : o.reset.posRefTy E i x.reset = o.posRefTy E i x := by
  have : x.reset.reflTy = x.reflTy := funext (reset_reflTy x)
  cases o with
  | tupleStruct tag fs => cases tag <;> simp only [Obj.reset, Obj.posRefTy, this]
  | tuple tag fs => cases tag <;> simp only [Obj.reset, Obj.posRefTy, this]
  | enumT tag v fs => cases tag <;> simp only [Obj.reset, Obj.posRefTy, this]
  | _ => simp only [Obj.reset, Obj.posRefTy, this]

theorem reset_entryRefTy (o : Obj) (k x : Obj) : o.reset.entryRefTy k.reset x.reset = o.entryRefTy k x := by
  cases o <;> simp only [Obj.reset, Obj.entryRefTy, reset_reflTy]

theorem debugAs_reset {D : Printing} (hU : ∀ n x, D.optOut n = false → D.user n x.reset = D.user n x) :
    ∀ (n : Nat) (o : Obj) (m : Option Ty), sizeOf o < n → debugAs E D m o.reset = debugAs E D m o
  | 0, _, _, h => by omega
  | n + 1, o, m, hn => by
    have ref : ∀ {m : Option Ty} {x : Obj}, sizeOf x < sizeOf o → dbgRef E D m x.reset = dbgRef E D m x := by
      intro m x hx
      cases m with
      | none => rfl
      | some u => exact debugAs_reset hU n x (some u) (by omega)
    have hpos : ∀ {xs : List Obj}, (∀ x ∈ xs, sizeOf x < sizeOf o) →
        ((xs.map Obj.reset).mapIdx fun i x => dbgRef E D (o.reset.posRefTy E i x) x) =
        xs.mapIdx fun i x => dbgRef E D (o.posRefTy E i x) x := by
      intro xs hx
      apply List.ext_getElem?
      intro i
      simp only [List.getElem?_mapIdx, List.getElem?_map, Option.map_map]
      cases h : xs[i]? with
      | none => rfl
      | some x => simp only [Option.map_some, Function.comp_def, reset_posRefTy, ref (hx x (List.mem_of_getElem? h))]
    have hnam : ∀ {fs : List (String × Obj)}, (∀ p ∈ fs, sizeOf p.2 < sizeOf o) →
        ((fs.map fun p => (p.1, p.2.reset)).map fun p => (p.1, dbgRef E D (o.reset.nameRefTy E p.1 p.2) p.2)) =
        fs.map fun p => (p.1, dbgRef E D (o.nameRefTy E p.1 p.2) p.2) := by
      intro fs hx
      rw [List.map_map]
      refine List.map_congr_left fun p hp => ?_
      simp only [Function.comp_def, reset_nameRefTy, ref (hx p hp)]
    have hmap : ∀ {kvs : List (Obj × Obj)}, (∀ p ∈ kvs, sizeOf p.1 < sizeOf o ∧ sizeOf p.2 < sizeOf o) →
        ((kvs.map resetPair).map fun p =>
          (dbgRef E D (o.reset.entryRefTy p.1 p.2).1 p.1, dbgRef E D (o.reset.entryRefTy p.1 p.2).2 p.2)) =
        kvs.map fun p => (dbgRef E D (o.entryRefTy p.1 p.2).1 p.1, dbgRef E D (o.entryRefTy p.1 p.2).2 p.2) := by
      intro kvs hx
      rw [List.map_map]
      refine List.map_congr_left fun p hp => ?_
      simp only [Function.comp_def, resetPair, reset_entryRefTy, ref (hx p hp).1, ref (hx p hp).2]
    have view : debugAs E D none o.reset = debugAs E D none o := by
      obtain ⟨d, hd⟩ : ∃ d, reflectDebug D.nameOf o = some d := ⟨_, reflectDebug_calls _ _⟩
      have hd' := reflectDebug_reset (nm := D.nameOf) (o := o) (by simp only [Printing.nameOf, reset_typeOf])
      rw [hd] at hd'
      rw [debugAs_view hd, debugAs_view hd']
      have hs := reflectDebug_smaller hd
      cases d <;> simp only [Dbg.reset, dbgLayer]
      case struct => rw [hnam hs]
      case tuple => rw [hpos hs]
      case list => rw [hpos hs]
      case map => rw [hmap hs]
    cases m with
    | none => exact view
    | some t =>
    cases t with
    | scalar k => rw [debugAs, debugAs, reset_asScalar]
    | nonzero k => rw [debugAs, debugAs, reset_asScalar]
    | named n =>
      rw [debugAs_named, debugAs_named, view]
      split
      · rfl
      · rename_i h; rw [hU n o (by simpa using h)]
    | tuple ts => rw [debugAs, debugAs]
    | vec u =>
      rw [debugAs_pos (.inl ⟨_, rfl⟩), debugAs_pos (.inl ⟨_, rfl⟩), reset_posIter]
      rw [hpos fun x hx => Obj.posIter_smaller hx]
    | array u n =>
      rw [debugAs_pos (.inr ⟨_, _, rfl⟩), debugAs_pos (.inr ⟨_, _, rfl⟩), reset_posIter]
      rw [hpos fun x hx => Obj.posIter_smaller hx]
    | map k v =>
      rw [debugAs_map, debugAs_map, reset_mapIter, hmap fun x hx => Obj.mapIter_smaller hx]
    | box u => rw [debugAs_box, debugAs_box, view]
    | value => rw [debugAs, debugAs, toValue_reset]
    | structValue => rw [debugAs, debugAs, toValue_reset]
    | tupleStructValue => rw [debugAs, debugAs, toValue_reset]
    | tupleValue => rw [debugAs, debugAs, toValue_reset]
    | enumValue => rw [debugAs, debugAs, toValue_reset]

/-! ## What prints alike is alike -/

theorem Printing.TextFaithful.scalar {D : Printing} (hT : D.TextFaithful) {a b : Scalar} (hk : a.kind = b.kind)
    (h : D.scalar a = D.scalar b) : a.canon = b.canon := by
  refine Scalar.canon_eq hk ?_
  cases a <;> cases b <;> simp only [Scalar.kind, reduceCtorEq] at hk <;>
    simp only [Printing.scalar] at h <;> simp only [encScalar]
  case int.int k n k' m =>
    have : n = m := Int.repr_injective h
    rw [this]
  case bool.bool a b => cases a <;> cases b <;> simp at h ⊢
  case char.char => rw [hT.char _ _ h]
  case f32.f32 => rw [hT.f32 _ _ h]
  case f64.f64 => rw [hT.f64 _ _ h]
  case string.string => rw [hT.str _ _ h]

theorem NoTuples.comp {t u : Ty} (h : NoTuples E t) (hu : u ∈ t.comps E) : NoTuples E u := by
  intro w hw
  refine h w ?_
  induction hw with
  | refl => exact .step _ _ .refl hu
  | step a b _ hb ih => exact .step _ _ ih hb

theorem NoTuples.unbox {t : Ty} (h : NoTuples E t) : NoTuples E t.unbox := by
  induction t using Ty.unbox.induct with
  | case1 t ih => rw [Ty.unbox]; exact ih (h.comp (by simp [Ty.comps]))
  | case2 t h' => rw [Ty.unbox]; exact h; exact h'

theorem static_reflTy {t : Ty} (h : Static E t) (x : Obj) : x.reflTy t = some t.unbox := by
  induction t using Ty.unbox.induct with
  | case1 t ih => rw [Ty.unbox, Obj.reflTy]; exact ih (h.comp (by simp [Ty.comps]))
  | case2 t h' =>
    rw [Ty.unbox]
    · have := static_ne h
      cases t <;> simp only [Obj.reflTy, ne_eq, not_true_eq_false, false_and, and_false] at this ⊢
      exact absurd rfl (h' _)
    · exact h'

theorem struct_comp {n : String} {fds : List FieldDef} {c : Bool} (hd : E.decl n = some ⟨.struct fds, c⟩) {i : Nat}
    {fd : FieldDef} (hf : fds[i]? = some fd) (hs : fd.skip = false) : fd.ty ∈ (Ty.named n).comps E := by
  simp only [Ty.comps, hd, List.mem_map, List.mem_filter]
  exact ⟨fd, ⟨List.mem_of_getElem? hf, by simp [hs]⟩, rfl⟩

theorem tupleStruct_comp {n : String} {fds : List FieldDef} {c : Bool} (hd : E.decl n = some ⟨.tupleStruct fds, c⟩)
    {i : Nat} {fd : FieldDef} (hf : fds[i]? = some fd) (hs : fd.skip = false) : fd.ty ∈ (Ty.named n).comps E := by
  simp only [Ty.comps, hd, List.mem_map, List.mem_filter]
  exact ⟨fd, ⟨List.mem_of_getElem? hf, by simp [hs]⟩, rfl⟩

theorem enumS_comp {n vn : String} {vds : List VariantDef} {fds : List FieldDef} {c : Bool}
    (hd : E.decl n = some ⟨.enum vds, c⟩) (hv : VariantDef.struct vn fds ∈ vds) {i : Nat} {fd : FieldDef}
    (hf : fds[i]? = some fd) (hs : fd.skip = false) : fd.ty ∈ (Ty.named n).comps E := by
  simp only [Ty.comps, hd, List.mem_flatMap]
  exact ⟨_, hv, List.mem_map.mpr ⟨fd, List.mem_filter.mpr ⟨List.mem_of_getElem? hf, by simp [hs]⟩, rfl⟩⟩

theorem enumT_comp {n vn : String} {vds : List VariantDef} {fds : List FieldDef} {c : Bool}
    (hd : E.decl n = some ⟨.enum vds, c⟩) (hv : VariantDef.tuple vn fds ∈ vds) {i : Nat} {fd : FieldDef}
    (hf : fds[i]? = some fd) (hs : fd.skip = false) : fd.ty ∈ (Ty.named n).comps E := by
  simp only [Ty.comps, hd, List.mem_flatMap]
  exact ⟨_, hv, List.mem_map.mpr ⟨fd, List.mem_filter.mpr ⟨List.mem_of_getElem? hf, by simp [hs]⟩, rfl⟩⟩

theorem rep_hidden {a b : Obj} (ha : a.isHidden = true) (hb : b.isHidden = true) : a.rep = b.rep := by
  cases a <;> simp only [Obj.isHidden, Bool.false_eq_true] at ha
  cases b <;> simp only [Obj.isHidden, Bool.false_eq_true] at hb
  simp [Obj.rep, Obj.canon, Obj.reset]

theorem pos_rep {fds : List FieldDef} {fs gs : List Obj} (hl : fs.length = fds.length) (hl' : gs.length = fds.length)
    (h3 : ∀ (i : Nat) fd x, fds[i]? = some fd → fs[i]? = some x → x.isHidden = fd.skip)
    (h3' : ∀ (i : Nat) fd x, fds[i]? = some fd → gs[i]? = some x → x.isHidden = fd.skip)
    (g : ∀ i j : Nat, i < j → ∀ x, fs[j]? = some x → x.isHidden = false → ∃ y, fs[i]? = some y ∧ y.isHidden = false)
    (g' : ∀ i j : Nat, i < j → ∀ x, gs[j]? = some x → x.isHidden = false → ∃ y, gs[i]? = some y ∧ y.isHidden = false)
    {F G : Nat → Obj → DTree}
    (he : (fs.takeWhile fun x => !x.isHidden).mapIdx F = (gs.takeWhile fun x => !x.isHidden).mapIdx G)
    (hc : ∀ (i : Nat) fd a b, fds[i]? = some fd → fs[i]? = some a → gs[i]? = some b → fd.skip = false →
      F i a = G i b → a.rep = b.rep) : (fs.map fun x => x.rep) = gs.map fun x => x.rep := by
  apply List.ext_getElem?
  intro i
  simp only [List.getElem?_map]
  cases hf : fs[i]? with
  | none =>
    have : gs[i]? = none := by rw [List.getElem?_eq_none_iff] at hf ⊢; omega
    rw [this]
  | some a =>
    obtain ⟨fd, hfd⟩ := align_pos hl hf
    obtain ⟨b, hg⟩ := align_pos hl'.symm hfd
    rw [hg]
    simp only [Option.map_some, Option.some.injEq]
    have ha := h3 i fd a hfd hf
    have hb := h3' i fd b hfd hg
    cases hs : fd.skip with
    | true => rw [hs] at ha hb; exact rep_hidden ha hb
    | false =>
      rw [hs] at ha hb
      refine hc i fd a b hfd hf hg hs ?_
      have e := congrArg (·[i]?) he
      simp only [List.getElem?_mapIdx] at e
      rw [takeWhile_of_get hf (by simp [ha]) fun j hj => by simpa using g j i hj a hf ha,
        takeWhile_of_get hg (by simp [hb]) fun j hj => by simpa using g' j i hj b hg hb] at e
      simpa using e

theorem named_rep {fds : List FieldDef} {fs gs : List (String × Obj)} (hl : fs.map (·.1) = fds.map (·.name))
    (hl' : gs.map (·.1) = fds.map (·.name))
    (h3 : ∀ (i : Nat) fd p, fds[i]? = some fd → fs[i]? = some p → p.2.isHidden = fd.skip)
    (h3' : ∀ (i : Nat) fd p, fds[i]? = some fd → gs[i]? = some p → p.2.isHidden = fd.skip)
    (hc : ∀ (i : Nat) fd p q, fds[i]? = some fd → fd.name = p.1 → p.1 = q.1 → fs[i]? = some p → gs[i]? = some q →
      fd.skip = false → p.2.isHidden = false → q.2.isHidden = false → p.2.rep = q.2.rep) :
    (fs.map fun p => (p.1, p.2.rep)) = gs.map fun p => (p.1, p.2.rep) := by
  apply List.ext_getElem?
  intro i
  simp only [List.getElem?_map]
  cases hf : fs[i]? with
  | none =>
    have : gs[i]? = none := by
      have e : fs.length = gs.length := by simpa using congrArg List.length (hl.trans hl'.symm)
      rw [List.getElem?_eq_none_iff] at hf ⊢; omega
    rw [this]
  | some p =>
    obtain ⟨fd, hfd, hne⟩ := align_named hl hf
    obtain ⟨q, hg, hne'⟩ := align_named' hl' hfd
    rw [hg]
    have e1 : p.1 = q.1 := hne.symm.trans hne'
    have ha := h3 i fd p hfd hf
    have hb := h3' i fd q hfd hg
    have e2 : p.2.rep = q.2.rep := by
      cases hs : fd.skip with
      | true => rw [hs] at ha hb; exact rep_hidden ha hb
      | false => rw [hs] at ha hb; exact hc i fd p q hfd hne e1 hf hg hs ha hb
    simp only [Option.map_some, e1, e2]

theorem filter_get {α β} {q : α → Bool} {F G : α → β} : ∀ {l m : List α}, l.length = m.length →
    (∀ (i : Nat) a b, l[i]? = some a → m[i]? = some b → q a = q b) → (l.filter q).map F = (m.filter q).map G →
    ∀ {i : Nat} {a b : α}, l[i]? = some a → m[i]? = some b → q a = true → F a = G b
  | [], _, _, _, _, _, _, _, ha, _, _ => by simp at ha
  | _ :: _, [], hl, _, _, _, _, _, _, _, _ => by simp at hl
  | x :: l, y :: m, hl, hq, he, i, a, b, ha, hb, hqa => by
    have h0 := hq 0 x y rfl rfl
    have hr := fun he i a b ha hb hqa => filter_get (l := l) (m := m) (F := F) (G := G) (q := q) (by simpa using hl)
      (fun i a b h h' => hq (i + 1) a b (by simpa using h) (by simpa using h')) he (i := i) (a := a) (b := b) ha hb hqa
    cases hx : q x with
    | true =>
      rw [hx] at h0
      simp only [List.filter_cons, hx, ← h0, if_true, List.map_cons, List.cons.injEq] at he
      cases i with
      | zero => simp at ha hb; subst ha; subst hb; exact he.1
      | succ i => exact hr he.2 i a b (by simpa using ha) (by simpa using hb) hqa
    | false =>
      rw [hx] at h0
      simp only [List.filter_cons, hx, ← h0, Bool.false_eq_true, if_false] at he
      cases i with
      | zero => simp at ha; subst ha; rw [hx] at hqa; cases hqa
      | succ i => exact hr he i a b (by simpa using ha) (by simpa using hb) hqa

/-- Two values of a type without tuples and dynamic types that print alike have the same shown content. -/
theorem debug_inj (hD : DeclsOK E) (hO : OrdLaws E) (hK : KeysShown E) {D : Printing} (hT : D.TextFaithful)
    (hU : D.UserFaithful E) : ∀ (n : Nat) (t : Ty) (x y : Obj), sizeOf x < n → Static E t → NoTuples E t →
    HasTy E t x → HasTy E t y → x.Everywhere Obj.GapFree → y.Everywhere Obj.GapFree →
    (debugAs E D none x = debugAs E D none y → x.rep = y.rep) ∧
      (debugAs E D (some t) x = debugAs E D (some t) y → x.rep = y.rep)
  | 0, _, _, _, h, _, _, _, _, _, _ => by omega
  | n + 1, t, x, y, hn, hS, hN, hx, hy, gx, gy => by
    have view : debugAs E D none x = debugAs E D none y → x.rep = y.rep := by
      have hb : ∀ u, t.unbox ≠ .box u := unbox_ne t
      have hS := hS.unbox
      have hN := hN.unbox
      replace hx := hasTy_unbox.mpr hx
      replace hy := hasTy_unbox.mpr hy
      generalize t.unbox = s at hb hS hN hx hy
      have cxs : ∀ a ∈ x.parts, a.Everywhere Obj.GapFree := by cases gx with | mk _ _ h => exact h
      have cys : ∀ a ∈ y.parts, a.Everywhere Obj.GapFree := by cases gy with | mk _ _ h => exact h
      have fx : x.GapFree := by cases gx with | mk _ h _ => exact h
      have fy : y.GapFree := by cases gy with | mk _ h _ => exact h
      have here : ∀ {u : Ty} {a b : Obj}, u ∈ s.comps E → sizeOf a < sizeOf x → a ∈ x.parts → b ∈ y.parts →
          HasTy E u a → HasTy E u b → dbgRef E D (some u) a = dbgRef E D (some u) b → a.rep = b.rep := by
        intro u a b hu hsz pa pb ha hb he
        exact (debug_inj hD hO hK hT hU n u a b (by omega) (hS.comp hu) (hN.comp hu) ha hb (cxs a pa) (cys b pb)).2 he
      have there : ∀ {u : Ty} {a b : Obj}, u ∈ s.comps E → sizeOf a < sizeOf x → a ∈ x.parts → b ∈ y.parts →
          HasTy E u a → HasTy E u b → dbgRef E D (a.reflTy u) a = dbgRef E D (b.reflTy u) b → a.rep = b.rep := by
        intro u a b hu hsz pa pb ha hb he
        rw [static_reflTy (hS.comp hu), static_reflTy (hS.comp hu)] at he
        exact (debug_inj hD hO hK hT hU n u.unbox a b (by omega) (hS.comp hu).unbox (hN.comp hu).unbox
          (hasTy_unbox.mpr ha) (hasTy_unbox.mpr hb) (cxs a pa) (cys b pb)).2 he
      have hid : ∀ {b : Bool} {x : Obj}, (b = true → x.isHidden = true) → (b = false → ∃ t, HasTy E t x) →
          x.isHidden = b := by
        intro b x h1 h2
        cases b with
        | true => exact h1 rfl
        | false => obtain ⟨_, h⟩ := h2 rfl; exact h.not_hidden
      have uniq : ∀ {n : String} {vds : List VariantDef} {c : Bool} {a b : VariantDef},
          E.decl n = some ⟨.enum vds, c⟩ → a ∈ vds → b ∈ vds → a.name = b.name → a = b := by
        intro n vds c a b hd ha hb he
        have h1 := find_variant (hD.variant_names n vds c hd) ha
        have h2 := find_variant (hD.variant_names n vds c hd) hb
        rw [he] at h1
        exact Option.some.inj (h1.symm.trans h2)
      intro he
      rw [debugAs_none, debugAs_none] at he
      cases hx with
      | scalar a =>
        generalize hT' : Ty.scalar a.kind = T at hy
        cases hy <;> simp only [reduceCtorEq, Ty.scalar.injEq] at hT'
        simp only [dbgCalls, dbgLayer, DTree.text.injEq] at he
        simp only [Obj.rep, Obj.canon, hT.scalar hT' he]
      | nonzero k a ha =>
        cases hy with
        | nonzero _ b hb =>
          simp only [dbgCalls, dbgLayer, DTree.text.injEq, Printing.scalar] at he
          have : a = b := Int.repr_injective he
          rw [this]
      | struct n fds c fs hd h2 h3 h4 =>
        cases hy with
        | struct _ fds' c' gs hd' h2' h3' h4' =>
          rw [hd] at hd'; cases hd'
          simp only [dbgCalls, dbgLayer, DTree.struct.injEq, Obj.namedIter] at he
          have hx' := fun i fd p a b => hid (h3 i fd p a b) fun hs => ⟨_, h4 i fd p a b hs⟩
          have hy' := fun i fd p a b => hid (h3' i fd p a b) fun hs => ⟨_, h4' i fd p a b hs⟩
          have := named_rep h2 h2' hx' hy' fun i fd p q hfd hn hpq hp hq hs hhp hhq => by
            have e := filter_get (by simpa using congrArg List.length (h2.trans h2'.symm))
              (fun i a b ha hb => by
                obtain ⟨fd, hfd, _⟩ := align_named h2 ha
                rw [hx' i fd a hfd ha, hy' i fd b hfd hb]) he.2 hp hq (by simp [hhp])
            have hf := find_field (hD.struct_names _ _ _ hd) (List.mem_of_getElem? hfd)
            rw [hn] at hf
            simp only [Prod.mk.injEq, Obj.nameRefTy, Env.structFieldTy, hd, ← hpq, hf, Option.map_some] at e
            refine here (struct_comp hd hfd hs) ?_ ?_ ?_ (h4 i fd p hfd hp hs) (h4' i fd q hfd hq hs) e.2
            · have := sizeOf_snd_lt_of_mem (List.mem_of_getElem? hp); simp; omega
            · exact List.mem_map.mpr ⟨p, List.mem_filter.mpr ⟨List.mem_of_getElem? hp, by simp [hhp]⟩, rfl⟩
            · exact List.mem_map.mpr ⟨q, List.mem_filter.mpr ⟨List.mem_of_getElem? hq, by simp [hhq]⟩, rfl⟩
          simpa only [Obj.rep, Obj.canon, Obj.reset, List.map_map, Function.comp_def, Obj.struct.injEq, true_and]
            using this
        | tupleStruct _ _ _ _ hd' => rw [hd] at hd'; cases hd'
        | enumS _ _ _ _ _ _ hd' => rw [hd] at hd'; cases hd'
        | enumT _ _ _ _ _ _ hd' => rw [hd] at hd'; cases hd'
        | enumU _ _ _ _ hd' => rw [hd] at hd'; cases hd'
      | tupleStruct n fds c fs hd h2 h3 h4 =>
        cases hy with
        | tupleStruct _ fds' c' gs hd' h2' h3' h4' =>
          rw [hd] at hd'; cases hd'
          simp only [dbgCalls, dbgLayer, DTree.tuple.injEq, Obj.posIter] at he
          have hx' := fun i fd p a b => hid (h3 i fd p a b) fun hs => ⟨_, h4 i fd p a b hs⟩
          have hy' := fun i fd p a b => hid (h3' i fd p a b) fun hs => ⟨_, h4' i fd p a b hs⟩
          have := pos_rep h2 h2' hx' hy' fx fy he.2 fun i fd a b hfd ha hb hs e => by
            simp only [Obj.posRefTy, Env.tupleFieldTy, hd, hfd, Option.map_some, Option.bind_some] at e
            have hha := hx' i fd a hfd ha
            have hhb := hy' i fd b hfd hb
            rw [hs] at hha hhb
            refine there (tupleStruct_comp hd hfd hs) ?_ ?_ ?_ (h4 i fd a hfd ha hs) (h4' i fd b hfd hb hs) e
            · have := List.sizeOf_lt_of_mem (List.mem_of_getElem? ha); simp; omega
            · exact List.mem_filter.mpr ⟨List.mem_of_getElem? ha, by simp [hha]⟩
            · exact List.mem_filter.mpr ⟨List.mem_of_getElem? hb, by simp [hhb]⟩
          simpa only [Obj.rep, Obj.canon, Obj.reset, List.map_map, Function.comp_def, Obj.tupleStruct.injEq, true_and]
            using this
        | struct _ _ _ _ hd' => rw [hd] at hd'; cases hd'
        | enumS _ _ _ _ _ _ hd' => rw [hd] at hd'; cases hd'
        | enumT _ _ _ _ _ _ hd' => rw [hd] at hd'; cases hd'
        | enumU _ _ _ _ hd' => rw [hd] at hd'; cases hd'
      | enumS n vds c vn fds fs hd hv h2 h3 h4 =>
        cases hy with
        | struct _ _ _ _ hd' => rw [hd] at hd'; cases hd'
        | tupleStruct _ _ _ _ hd' => rw [hd] at hd'; cases hd'
        | enumT => simp only [dbgCalls, dbgLayer, reduceCtorEq] at he
        | enumU => simp only [dbgCalls, dbgLayer, reduceCtorEq] at he
        | enumS _ vds' c' vn' fds' gs hd' hv' h2' h3' h4' =>
          rw [hd] at hd'; cases hd'
          simp only [dbgCalls, dbgLayer, DTree.struct.injEq, Obj.namedIter] at he
          obtain ⟨rfl, he⟩ := he
          cases uniq hd hv hv' rfl
          have hx' := fun i fd p a b => hid (h3 i fd p a b) fun hs => ⟨_, h4 i fd p a b hs⟩
          have hy' := fun i fd p a b => hid (h3' i fd p a b) fun hs => ⟨_, h4' i fd p a b hs⟩
          have := named_rep h2 h2' hx' hy' fun i fd p q hfd hn hpq hp hq hs hhp hhq => by
            have e := congrArg (·[i]?) he
            simp only [List.getElem?_map] at e
            rw [takeWhile_of_get hp (by simp [hhp]) fun j hj => by simpa using fx j i hj p hp hhp,
              takeWhile_of_get hq (by simp [hhq]) fun j hj => by simpa using fy j i hj q hq hhq] at e
            have hf := find_field (hD.variant_fields _ _ _ _ _ hd hv) (List.mem_of_getElem? hfd)
            rw [hn] at hf
            have hfv : vds.find? (fun vd => vd.name == vn) = some (.struct vn fds) :=
              find_variant (hD.variant_names n vds c hd) hv
            simp only [Option.map_some, Option.some.injEq, Prod.mk.injEq, Obj.nameRefTy, Env.variantFieldTy, hd, hfv,
              ← hpq, hf, Option.bind_some] at e
            refine there (enumS_comp hd hv hfd hs) ?_ ?_ ?_ (h4 i fd p hfd hp hs) (h4' i fd q hfd hq hs) e.2
            · have := sizeOf_snd_lt_of_mem (List.mem_of_getElem? hp); simp; omega
            · exact List.mem_map.mpr ⟨p, List.mem_filter.mpr ⟨List.mem_of_getElem? hp, by simp [hhp]⟩, rfl⟩
            · exact List.mem_map.mpr ⟨q, List.mem_filter.mpr ⟨List.mem_of_getElem? hq, by simp [hhq]⟩, rfl⟩
          simpa only [Obj.rep, Obj.canon, Obj.reset, List.map_map, Function.comp_def, Obj.enumS.injEq, true_and]
            using this
      | enumT n vds c vn fds fs hd hv h2 h3 h4 =>
        cases hy with
        | struct _ _ _ _ hd' => rw [hd] at hd'; cases hd'
        | tupleStruct _ _ _ _ hd' => rw [hd] at hd'; cases hd'
        | enumS => simp only [dbgCalls, dbgLayer, reduceCtorEq] at he
        | enumU => simp only [dbgCalls, dbgLayer, reduceCtorEq] at he
        | enumT _ vds' c' vn' fds' gs hd' hv' h2' h3' h4' =>
          rw [hd] at hd'; cases hd'
          simp only [dbgCalls, dbgLayer, DTree.tuple.injEq, Obj.posIter] at he
          obtain ⟨rfl, he⟩ := he
          cases uniq hd hv hv' rfl
          have hfv : vds.find? (fun vd => vd.name == vn) = some (.tuple vn fds) :=
            find_variant (hD.variant_names n vds c hd) hv
          have hx' := fun i fd p a b => hid (h3 i fd p a b) fun hs => ⟨_, h4 i fd p a b hs⟩
          have hy' := fun i fd p a b => hid (h3' i fd p a b) fun hs => ⟨_, h4' i fd p a b hs⟩
          have := pos_rep h2 h2' hx' hy' fx fy he fun i fd a b hfd ha hb hs e => by
            simp only [Obj.posRefTy, Env.variantAtTy, hd, hfv, hfd, Option.map_some, Option.bind_some] at e
            have hha := hx' i fd a hfd ha
            have hhb := hy' i fd b hfd hb
            rw [hs] at hha hhb
            refine there (enumT_comp hd hv hfd hs) ?_ ?_ ?_ (h4 i fd a hfd ha hs) (h4' i fd b hfd hb hs) e
            · have := List.sizeOf_lt_of_mem (List.mem_of_getElem? ha); simp; omega
            · exact List.mem_filter.mpr ⟨List.mem_of_getElem? ha, by simp [hha]⟩
            · exact List.mem_filter.mpr ⟨List.mem_of_getElem? hb, by simp [hhb]⟩
          simpa only [Obj.rep, Obj.canon, Obj.reset, List.map_map, Function.comp_def, Obj.enumT.injEq, true_and]
            using this
      | enumU n vds c vn hd hv =>
        cases hy with
        | struct _ _ _ _ hd' => rw [hd] at hd'; cases hd'
        | tupleStruct _ _ _ _ hd' => rw [hd] at hd'; cases hd'
        | enumS => simp only [dbgCalls, dbgLayer, reduceCtorEq] at he
        | enumT => simp only [dbgCalls, dbgLayer, reduceCtorEq] at he
        | enumU =>
          simp only [dbgCalls, dbgLayer, DTree.text.injEq] at he
          rw [he]
      | tuple ts => exact absurd rfl (hN _ .refl ts)
      | vec u xs hxs =>
        cases hy with
        | vec _ ys hys =>
          simp only [dbgCalls, dbgLayer, DTree.list.injEq, Obj.posRefTy] at he
          have : (xs.map fun x => x.rep) = ys.map fun x => x.rep := by
            apply List.ext_getElem?
            intro i
            have e := congrArg (·[i]?) he
            simp only [List.getElem?_map, List.getElem?_mapIdx] at e ⊢
            cases ha : xs[i]? <;> cases hb : ys[i]? <;> rw [ha, hb] at e <;>
              simp only [Option.map_none, Option.map_some, reduceCtorEq, Option.some.injEq] at e ⊢
            have ma := List.mem_of_getElem? ha
            have mb := List.mem_of_getElem? hb
            exact there (by simp [Ty.comps]) (by have := List.sizeOf_lt_of_mem ma; simp; omega) ma mb (hxs _ ma) (hys _ mb) e
          simpa only [Obj.rep, Obj.canon, Obj.reset, List.map_map, Function.comp_def, Obj.vec.injEq, true_and] using this
      | array u xs hxs =>
        generalize hT' : Ty.array u xs.length = T at hy
        cases hy <;> simp only [reduceCtorEq, Ty.array.injEq] at hT'
        rename_i u' ys hys
        obtain ⟨rfl, _⟩ := hT'
        simp only [dbgCalls, dbgLayer, DTree.list.injEq, Obj.posRefTy] at he
        have : (xs.map fun x => x.rep) = ys.map fun x => x.rep := by
          apply List.ext_getElem?
          intro i
          have e := congrArg (·[i]?) he
          simp only [List.getElem?_map, List.getElem?_mapIdx] at e ⊢
          cases ha : xs[i]? <;> cases hb : ys[i]? <;> rw [ha, hb] at e <;>
            simp only [Option.map_none, Option.map_some, reduceCtorEq, Option.some.injEq] at e ⊢
          have ma := List.mem_of_getElem? ha
          have mb := List.mem_of_getElem? hb
          exact there (by simp [Ty.comps]) (by have := List.sizeOf_lt_of_mem ma; simp; omega) ma mb (hxs _ ma) (hys _ mb) e
        simpa only [Obj.rep, Obj.canon, Obj.reset, List.map_map, Function.comp_def, Obj.array.injEq, true_and] using this
      | map kt vt kvs _ hk hv =>
        cases hy with
        | map _ _ lws _ hk' hv' =>
          simp only [dbgCalls, dbgLayer, DTree.map.injEq, Obj.entryRefTy] at he
          have : (kvs.map fun p => (p.1.rep, p.2.rep)) = lws.map fun p => (p.1.rep, p.2.rep) := by
            apply List.ext_getElem?
            intro i
            have e := congrArg (·[i]?) he
            simp only [List.getElem?_map] at e ⊢
            cases ha : kvs[i]? <;> cases hb : lws[i]? <;> rw [ha, hb] at e <;>
              simp only [Option.map_none, Option.map_some, reduceCtorEq, Option.some.injEq, Prod.mk.injEq] at e ⊢
            have ma := List.mem_of_getElem? ha
            have mb := List.mem_of_getElem? hb
            have p1 : ∀ {l : List (Obj × Obj)} {p}, p ∈ l → p.1 ∈ l.map (·.1) ++ l.map (·.2) := fun h =>
              List.mem_append.mpr (.inl (List.mem_map.mpr ⟨_, h, rfl⟩))
            have p2 : ∀ {l : List (Obj × Obj)} {p}, p ∈ l → p.2 ∈ l.map (·.1) ++ l.map (·.2) := fun h =>
              List.mem_append.mpr (.inr (List.mem_map.mpr ⟨_, h, rfl⟩))
            exact ⟨there (by simp [Ty.comps]) (by have := sizeOf_fst_lt_of_mem ma; simp; omega) (p1 ma) (p1 mb)
                (hk _ ma) (hk' _ mb) e.1,
              there (by simp [Ty.comps]) (by have := sizeOf_snd_lt_of_mem ma; simp; omega) (p2 ma) (p2 mb)
                (hv _ ma) (hv' _ mb) e.2⟩
          simpa only [Obj.rep, Obj.canon, Obj.reset, List.map_map, Function.comp_def, Obj.map.injEq, true_and] using this
      | box u => exact absurd rfl (hb u)
      | value => exact absurd rfl (static_ne hS).1
      | structValue => exact absurd rfl (static_ne hS).2.1
      | tupleStructValue => exact absurd rfl (static_ne hS).2.2.1
      | tupleValue => exact absurd rfl (static_ne hS).2.2.2.1
      | enumValueS => exact absurd rfl (static_ne hS).2.2.2.2
      | enumValueT => exact absurd rfl (static_ne hS).2.2.2.2
      | enumValueU => exact absurd rfl (static_ne hS).2.2.2.2
    refine ⟨view, fun he => ?_⟩
    cases t with
    | scalar k =>
      refine view ?_
      generalize hT' : Ty.scalar k = T at hx hy
      cases hx <;> try (simp only [reduceCtorEq] at hT'; done)
      generalize hT'' : Ty.scalar _ = T at hy
      cases hy <;> try (simp only [reduceCtorEq] at hT''; done)
      rw [debugAs, debugAs] at he
      rw [debugAs_none, debugAs_none]
      exact he
    | nonzero k =>
      refine view ?_
      cases hx
      cases hy
      rw [debugAs, debugAs] at he
      rw [debugAs_none, debugAs_none]
      exact he
    | named n =>
      rw [debugAs_named, debugAs_named] at he
      cases ho : D.optOut n with
      | true => rw [ho, if_pos rfl, if_pos rfl] at he; exact view he
      | false =>
        simp only [ho, Bool.false_eq_true, if_false, DTree.text.injEq] at he
        exact SameShown.rep hD hO hK hx hy (hU n x y ho hx hy he)
    | tuple ts => exact absurd rfl (hN _ .refl ts)
    | vec u =>
      refine view ?_
      rw [debugAs_pos (.inl ⟨_, rfl⟩), debugAs_pos (.inl ⟨_, rfl⟩)] at he
      cases hx; cases hy
      rw [debugAs_none, debugAs_none]; exact he
    | array u m =>
      refine view ?_
      rw [debugAs_pos (.inr ⟨_, _, rfl⟩), debugAs_pos (.inr ⟨_, _, rfl⟩)] at he
      generalize hT' : Ty.array u m = T at hx hy
      cases hx <;> try (simp only [reduceCtorEq] at hT'; done)
      generalize hT'' : Ty.array _ _ = T at hy
      cases hy <;> try (simp only [reduceCtorEq] at hT''; done)
      rw [debugAs_none, debugAs_none]; exact he
    | map k v =>
      refine view ?_
      rw [debugAs_map, debugAs_map] at he
      cases hx; cases hy
      rw [debugAs_none, debugAs_none]; exact he
    | box u => rw [debugAs_box, debugAs_box] at he; exact view he
    | value => exact absurd rfl (static_ne hS).1
    | structValue => exact absurd rfl (static_ne hS).2.1
    | tupleStructValue => exact absurd rfl (static_ne hS).2.2.1
    | tupleValue => exact absurd rfl (static_ne hS).2.2.2.1
    | enumValue => exact absurd rfl (static_ne hS).2.2.2.2

/-! ## Own `Debug`s -/

theorem Value.debug_user (D : Printing) (f : String → Obj → String) (v : Value) : ∀ b,
    v.debug { D with user := f } b = v.debug D b := by
  induction v using Value.ind with
  | h v ih =>
  have sc : ∀ s, Printing.scalar { D with user := f } s = D.scalar s := fun s => by cases s <;> rfl
  have pos : ∀ {fs : List Value}, (∀ x ∈ fs, sizeOf x < sizeOf v) →
      (fs.map fun x => x.debug { D with user := f } true) = fs.map fun x => x.debug D true := fun h =>
    List.map_congr_left fun x hx => ih x (h x hx) true
  have named : ∀ {fs : List (String × Value)}, (∀ x ∈ fs, sizeOf x.2 < sizeOf v) →
      (fs.map fun q => (DTree.text (D.str q.1), q.2.debug { D with user := f } true)) =
        fs.map fun q => (DTree.text (D.str q.1), q.2.debug D true) := fun h =>
    List.map_congr_left fun x hx => by rw [ih x.2 (h x hx) true]
  intro b
  cases v with
  | scalar s => rw [Value.debug, Value.debug, sc]
  | struct ns fs =>
    rw [Value.debug, Value.debug, named fun p hp => by have := sizeOf_snd_lt_of_mem hp; simp; omega]
  | enumS v ns fs =>
    rw [Value.debug, Value.debug, named fun p hp => by have := sizeOf_snd_lt_of_mem hp; simp; omega]
  | enumT v fs =>
    rw [Value.debug, Value.debug, pos fun p hp => by have := List.sizeOf_lt_of_mem hp; simp; omega]
  | enumU v => rw [Value.debug, Value.debug]
  | tupleStruct fs =>
    rw [Value.debug, Value.debug, pos fun p hp => by have := List.sizeOf_lt_of_mem hp; simp; omega]
  | tuple fs =>
    rw [Value.debug, Value.debug, pos fun p hp => by have := List.sizeOf_lt_of_mem hp; simp; omega]
  | list fs =>
    rw [Value.debug, Value.debug, pos fun p hp => by have := List.sizeOf_lt_of_mem hp; simp; omega]
  | map kvs =>
    rw [Value.debug, Value.debug]
    have : (kvs.map fun q => (q.1.debug { D with user := f } true, q.2.debug { D with user := f } true)) =
        kvs.map fun q => (q.1.debug D true, q.2.debug D true) := List.map_congr_left fun x hx => by
      rw [ih x.1 (by have := sizeOf_fst_lt_of_mem hx; simp; omega) true,
        ih x.2 (by have := sizeOf_snd_lt_of_mem hx; simp; omega) true]
    rw [this]

/-- Only the own `Debug` of smaller values matters to `reflect_debug`. -/
theorem debugAs_user {D : Printing} {f : String → Obj → String} : ∀ (n : Nat) (o : Obj), sizeOf o < n →
    (∀ m x, sizeOf x < sizeOf o → f m x = D.user m x) →
    debugAs E { D with user := f } none o = debugAs E D none o ∧
      ((∀ m, f m o = D.user m o) → ∀ t, debugAs E { D with user := f } (some t) o = debugAs E D (some t) o)
  | 0, _, h, _ => by omega
  | n + 1, o, hn, hf => by
    have ref : ∀ {m : Option Ty} {x : Obj}, sizeOf x < sizeOf o →
        dbgRef E { D with user := f } m x = dbgRef E D m x := by
      intro m x hx
      cases m with
      | none => rfl
      | some u => exact (debugAs_user n x (by omega) fun m y hy => hf m y (by omega)).2 (fun m => hf m x hx) u
    have hpos : ∀ {xs : List Obj}, (∀ x ∈ xs, sizeOf x < sizeOf o) →
        (xs.mapIdx fun i x => dbgRef E { D with user := f } (o.posRefTy E i x) x) =
        xs.mapIdx fun i x => dbgRef E D (o.posRefTy E i x) x := by
      intro xs hx
      apply List.ext_getElem?
      intro i
      simp only [List.getElem?_mapIdx]
      cases h : xs[i]? with
      | none => rfl
      | some x => simp only [Option.map_some, ref (hx x (List.mem_of_getElem? h))]
    have hnam : ∀ {fs : List (String × Obj)}, (∀ p ∈ fs, sizeOf p.2 < sizeOf o) →
        (fs.map fun p => (p.1, dbgRef E { D with user := f } (o.nameRefTy E p.1 p.2) p.2)) =
        fs.map fun p => (p.1, dbgRef E D (o.nameRefTy E p.1 p.2) p.2) := fun hx =>
      List.map_congr_left fun p hp => by rw [ref (hx p hp)]
    have hmap : ∀ {kvs : List (Obj × Obj)}, (∀ p ∈ kvs, sizeOf p.1 < sizeOf o ∧ sizeOf p.2 < sizeOf o) →
        (kvs.map fun p => (dbgRef E { D with user := f } (o.entryRefTy p.1 p.2).1 p.1,
          dbgRef E { D with user := f } (o.entryRefTy p.1 p.2).2 p.2)) =
        kvs.map fun p => (dbgRef E D (o.entryRefTy p.1 p.2).1 p.1, dbgRef E D (o.entryRefTy p.1 p.2).2 p.2) := fun hx =>
      List.map_congr_left fun p hp => by rw [ref (hx p hp).1, ref (hx p hp).2]
    have sc : ∀ s, Printing.scalar { D with user := f } s = D.scalar s := fun s => by cases s <;> rfl
    have view : debugAs E { D with user := f } none o = debugAs E D none o := by
      have hd := reflectDebug_calls D.nameOf o
      have hs := reflectDebug_smaller hd
      rw [debugAs_view hd, debugAs_view (D := { D with user := f }) hd]
      generalize dbgCalls D.nameOf o = d at hs
      cases d <;> simp only [dbgLayer, sc]
      case struct => rw [hnam hs]
      case tuple => rw [hpos hs]
      case list => rw [hpos hs]
      case map => rw [hmap hs]
    refine ⟨view, fun ho t => ?_⟩
    cases t with
    | scalar k => rw [debugAs, debugAs]; cases o.asScalar <;> simp only [sc]
    | nonzero k => rw [debugAs, debugAs]; cases o.asScalar <;> simp only [sc]
    | named n => rw [debugAs_named, debugAs_named, view]; simp only [ho]
    | tuple ts => rw [debugAs, debugAs]
    | vec u =>
      rw [debugAs_pos (.inl ⟨_, rfl⟩), debugAs_pos (.inl ⟨_, rfl⟩), hpos fun x hx => Obj.posIter_smaller hx]
    | array u n =>
      rw [debugAs_pos (.inr ⟨_, _, rfl⟩), debugAs_pos (.inr ⟨_, _, rfl⟩), hpos fun x hx => Obj.posIter_smaller hx]
    | map k v => rw [debugAs_map, debugAs_map, hmap fun x hx => Obj.mapIter_smaller hx]
    | box u => rw [debugAs_box, debugAs_box, view]
    | value => rw [debugAs, debugAs, Value.debug_user]
    | structValue => rw [debugAs, debugAs, Value.debug_user]
    | tupleStructValue => rw [debugAs, debugAs, Value.debug_user]
    | tupleValue => rw [debugAs, debugAs, Value.debug_user]
    | enumValue => rw [debugAs, debugAs, Value.debug_user]

/-! ## `Value`s -/

theorem variantName_inj {a b : ScalarKind} (h : a.variantName = b.variantName) : a = b := by
  cases a with
  | int i => cases b with
    | int j => cases i <;> cases j <;> first | rfl | simp [ScalarKind.variantName] at h
    | _ => cases i <;> simp [ScalarKind.variantName] at h
  | _ => cases b with
    | int j => cases j <;> simp [ScalarKind.variantName] at h
    | _ => first | rfl | simp [ScalarKind.variantName] at h

/-- No scalar variant of `Value` has the name of another variant. -/
theorem variantName_ne (k : ScalarKind) : k.variantName ≠ "StructValue" ∧ k.variantName ≠ "EnumValue" ∧
    k.variantName ≠ "TupleStructValue" ∧ k.variantName ≠ "TupleValue" ∧ k.variantName ≠ "List" ∧
    k.variantName ≠ "Map" := by
  cases k with
  | int i => cases i <;> simp [ScalarKind.variantName]
  | _ => simp [ScalarKind.variantName]

theorem Value.debug_inj {D : Printing} (hT : D.TextFaithful) (v : Value) : ∀ w : Value,
    v.debug D true = w.debug D true → v.canon = w.canon := by
  induction v using Value.ind with
  | h v ih =>
  have names : ∀ {ns ms : List String}, (ns.map fun n => DTree.text (D.str n)) = (ms.map fun n => .text (D.str n)) →
      ns = ms := fun h => List.map_inj_right (fun a b e => hT.str a b (DTree.text.inj e)) |>.mp h
  have pos : ∀ {fs gs : List Value}, (∀ x ∈ fs, sizeOf x < sizeOf v) →
      (fs.map fun x => x.debug D true) = (gs.map fun x => x.debug D true) →
      (fs.map fun x => x.canon) = gs.map fun x => x.canon := by
    intro fs gs hs h
    apply List.ext_getElem?
    intro i
    have e := congrArg (·[i]?) h
    simp only [List.getElem?_map] at e ⊢
    cases ha : fs[i]? <;> cases hb : gs[i]? <;> rw [ha, hb] at e <;>
      simp only [Option.map_none, Option.map_some, reduceCtorEq, Option.some.injEq] at e ⊢
    exact ih _ (hs _ (List.mem_of_getElem? ha)) _ e
  have named : ∀ {fs gs : List (String × Value)}, (∀ x ∈ fs, sizeOf x.2 < sizeOf v) →
      (fs.map fun q => (DTree.text (D.str q.1), q.2.debug D true)) =
        (gs.map fun q => (DTree.text (D.str q.1), q.2.debug D true)) →
      (fs.map fun p => (p.1, p.2.canon)) = gs.map fun p => (p.1, p.2.canon) := by
    intro fs gs hs h
    apply List.ext_getElem?
    intro i
    have e := congrArg (·[i]?) h
    simp only [List.getElem?_map] at e ⊢
    cases ha : fs[i]? <;> cases hb : gs[i]? <;> rw [ha, hb] at e <;>
      simp only [Option.map_none, Option.map_some, reduceCtorEq, Option.some.injEq, Prod.mk.injEq, DTree.text.injEq] at e ⊢
    exact ⟨hT.str _ _ e.1, ih _ (hs _ (List.mem_of_getElem? ha)) _ e.2⟩
  intro w h
  cases v with
  | scalar s =>
    obtain ⟨n1, n2, n3, n4, n5, n6⟩ := variantName_ne s.kind
    cases w <;> simp only [Value.debug, if_true, DTree.tuple.injEq, List.cons.injEq, and_true, DTree.text.injEq, reduceCtorEq,
      and_false, n1, n2, n3, n4, n5, n6, false_and] at h
    rw [Value.canon, Value.canon, hT.scalar (variantName_inj h.1) h.2]
  | struct ns fs =>
    cases w <;> simp [Value.debug] at h
    obtain ⟨h1, h2⟩ := h
    rw [Value.canon, Value.canon]
    rw [names h1, named (fun p hp => by have := sizeOf_snd_lt_of_mem hp; simp; omega) h2]
  | enumS a ns fs =>
    cases w <;> simp [Value.debug] at h
    obtain ⟨h0, h1, h2⟩ := h
    rw [Value.canon, Value.canon]
    rw [hT.str _ _ h0, names h1, named (fun p hp => by have := sizeOf_snd_lt_of_mem hp; simp; omega) h2]
  | enumT a fs =>
    cases w <;> simp [Value.debug] at h
    obtain ⟨h0, h1⟩ := h
    rw [Value.canon, Value.canon]
    rw [hT.str _ _ h0, pos (fun p hp => by have := List.sizeOf_lt_of_mem hp; simp; omega) h1]
  | enumU a =>
    cases w <;> simp [Value.debug] at h
    rw [hT.str _ _ h]
  | tupleStruct fs =>
    cases w <;> simp [Value.debug] at h
    rw [Value.canon, Value.canon]
    rw [pos (fun p hp => by have := List.sizeOf_lt_of_mem hp; simp; omega) h]
  | tuple fs =>
    cases w <;> simp [Value.debug] at h
    rw [Value.canon, Value.canon]
    rw [pos (fun p hp => by have := List.sizeOf_lt_of_mem hp; simp; omega) h]
  | list fs =>
    cases w <;> simp [Value.debug] at h
    rw [Value.canon, Value.canon]
    rw [pos (fun p hp => by have := List.sizeOf_lt_of_mem hp; simp; omega) h]
  | map kvs =>
    cases w <;> simp [Value.debug] at h
    rename_i lws
    have : (kvs.map fun p => (p.1.canon, p.2.canon)) = lws.map fun p => (p.1.canon, p.2.canon) := by
      apply List.ext_getElem?
      intro i
      have e := congrArg (·[i]?) h
      simp only [List.getElem?_map] at e ⊢
      cases ha : kvs[i]? <;> cases hb : lws[i]? <;> rw [ha, hb] at e <;>
        simp only [Option.map_none, Option.map_some, reduceCtorEq, Option.some.injEq, Prod.mk.injEq] at e ⊢
      have ma := List.mem_of_getElem? ha
      exact ⟨ih _ (by have := sizeOf_fst_lt_of_mem ma; simp; omega) _ e.1,
        ih _ (by have := sizeOf_snd_lt_of_mem ma; simp; omega) _ e.2⟩
    rw [Value.canon, Value.canon, this]

end Mirror
