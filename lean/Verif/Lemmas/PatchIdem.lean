import Verif.Lemmas.Patch

set_option linter.unusedSimpArgs false

/-!
# Sequences of patches

`patchSeq E x ps` applies the patches `ps` one after the other. Applying the same sequence twice has
the effect of applying it once. Sequences are needed because several keys of a map patch may convert
to the same key of the patched map.
-/

namespace Mirror

/-- Apply patches from left to right. -/
def patchSeq (E : Env) (x : Obj) (ps : List Obj) : Obj := ps.foldl (patch E) x

theorem patchSeq_append (E : Env) (x : Obj) (as bs : List Obj) :
    patchSeq E x (as ++ bs) = patchSeq E (patchSeq E x as) bs := by
  simp [patchSeq]

theorem patchSeq_nil (E : Env) (x : Obj) : patchSeq E x [] = x := rfl

theorem patchSeq_cons (E : Env) (x p : Obj) (ps : List Obj) :
    patchSeq E x (p :: ps) = patchSeq E (patch E x p) ps := rfl

theorem patchSeq_hidden (E : Env) {x : Obj} (h : x.isHidden = true) (ps : List Obj) :
    patchSeq E x ps = x := by
  cases x <;> simp [Obj.isHidden] at h
  induction ps with
  | nil => rfl
  | cons p ps ih => rw [patchSeq_cons, patch_hidden, ih]

/-- Total size of a sequence. -/
noncomputable def tot (ps : List Obj) : Nat := (ps.map sizeOf).sum

theorem obj_size_pos (o : Obj) : 0 < sizeOf o := by cases o <;> simp <;> omega

theorem tot_append (as bs : List Obj) : tot (as ++ bs) = tot as + tot bs := by simp [tot]

theorem tot_flatMap_le {f : Obj → List Obj} {ps : List Obj} (h : ∀ v ∈ ps, tot (f v) < sizeOf v) :
    tot (ps.flatMap f) ≤ tot ps ∧ (ps ≠ [] → tot (ps.flatMap f) < tot ps) := by
  induction ps with
  | nil => simp [tot]
  | cons p ps ih =>
    have h1 := (ih fun v hv => h v (by simp [hv])).1
    have h2 := h p (by simp)
    have h3 : tot (p :: ps) = sizeOf p + tot ps := by simp [tot]
    rw [List.flatMap_cons, tot_append]
    constructor
    · omega
    · intro _; omega

theorem tot_toList {v : Obj} {o : Option Obj} (h : ∀ w, o = some w → sizeOf w < sizeOf v) :
    tot o.toList < sizeOf v := by
  cases o with
  | none => simp [tot]; exact obj_size_pos v
  | some w => simpa [tot] using h w rfl

/-! ## Sub-sequences reaching a field -/

/-- The patches reaching the field called `n`. -/
def subN (q : Obj → Bool) (n : String) (ps : List Obj) : List Obj :=
  ps.flatMap fun v => (if q v then v.field n else none).toList

/-- The patches reaching the field at position `i`. -/
def subP (q : Obj → Bool) (i : Nat) (ps : List Obj) : List Obj :=
  ps.flatMap fun v => (if q v then v.fieldAt i else none).toList

theorem subN_tot (q : Obj → Bool) (n : String) {ps : List Obj} (h : ps ≠ []) :
    tot (subN q n ps) < tot ps := by
  refine (tot_flatMap_le ?_).2 h
  intro v _
  apply tot_toList
  intro w hw
  split at hw
  · exact Obj.field_size hw
  · cases hw

theorem subP_tot (q : Obj → Bool) (i : Nat) {ps : List Obj} (h : ps ≠ []) :
    tot (subP q i ps) < tot ps := by
  refine (tot_flatMap_le ?_).2 h
  intro v _
  apply tot_toList
  intro w hw
  split at hw
  · exact Obj.fieldAt_size hw
  · cases hw

theorem subN_ok {E : Env} {q : Obj → Bool} {n : String} {ps : List Obj} (h : ∀ p ∈ ps, p.OK E) :
    ∀ p ∈ subN q n ps, p.OK E := by
  intro p hp
  obtain ⟨v, hv, hp⟩ := List.mem_flatMap.mp hp
  simp at hp
  exact OK_field (h v hv) hp.2

theorem subP_ok {E : Env} {q : Obj → Bool} {i : Nat} {ps : List Obj} (h : ∀ p ∈ ps, p.OK E) :
    ∀ p ∈ subP q i ps, p.OK E := by
  intro p hp
  obtain ⟨v, hv, hp⟩ := List.mem_flatMap.mp hp
  simp at hp
  exact OK_fieldAt (h v hv) hp.2

theorem subN_gf {q : Obj → Bool} {n : String} {ps : List Obj} (h : ∀ p ∈ ps, p.EnumsGapFree) :
    ∀ p ∈ subN q n ps, p.EnumsGapFree := by
  intro p hp
  obtain ⟨v, hv, hp⟩ := List.mem_flatMap.mp hp
  simp at hp
  exact (h v hv).parts (Obj.field_parts hp.2)

theorem subP_gf {E : Env} {q : Obj → Bool} {i : Nat} {ps : List Obj} (hok : ∀ p ∈ ps, p.OK E)
    (h : ∀ p ∈ ps, p.EnumsGapFree) :
    ∀ p ∈ subP q i ps, p.EnumsGapFree := by
  intro p hp
  obtain ⟨v, hv, hp⟩ := List.mem_flatMap.mp hp
  simp at hp
  exact (h v hv).parts (Obj.fieldAt_parts (hok v hv).choose_spec.dynVis hp.2)

theorem patchSeq_toList (E : Env) (x : Obj) (o : Option Obj) :
    patchSeq E x o.toList = patchO E x o := by
  cases o <;> rfl

theorem patchNamed_seq (E : Env) (q : Obj → Bool) (g : List (String × Obj) → Obj)
    (ps : List Obj)
    (hg : ∀ fs, ∀ v ∈ ps, patch E (g fs) v = if q v then g (patchNamed E v fs) else g fs) : ∀ fs : List (String × Obj), patchSeq E (g fs) ps =
      g (fs.map fun p => (p.1, patchSeq E p.2 (subN q p.1 ps))) := by
  induction ps with
  | nil => intro fs; simp [patchSeq, subN]
  | cons v ps ih =>
    intro fs
    have ih := ih fun fs v hv => hg fs v (by simp [hv])
    rw [patchSeq_cons, hg fs v (by simp)]
    split
    · next hq =>
      rw [ih]
      congr 1
      simp only [patchNamed, List.map_map]
      apply List.map_congr_left
      intro p _
      simp only [Function.comp, subN, List.flatMap_cons, hq, if_true, patchSeq_append,
        patchSeq_toList]
    · next hq =>
      rw [ih]
      congr 1
      apply List.map_congr_left
      intro p _
      simp only [subN, List.flatMap_cons, hq, if_false, Option.toList_none, List.nil_append,
        Bool.false_eq_true]

theorem patchPos_seq (E : Env) (q : Obj → Bool) (g : List Obj → Obj)
    (ps : List Obj)
    (hg : ∀ fs, ∀ v ∈ ps, patch E (g fs) v = if q v then g (patchPos E v fs) else g fs) : ∀ fs : List Obj, patchSeq E (g fs) ps =
      g (fs.mapIdx fun i y => patchSeq E y (subP q i ps)) := by
  induction ps with
  | nil => intro fs; simp [patchSeq, subP]; congr 1; apply List.ext_getElem?; simp
  | cons v ps ih =>
    intro fs
    have ih := ih fun fs v hv => hg fs v (by simp [hv])
    rw [patchSeq_cons, hg fs v (by simp)]
    split
    · next hq =>
      rw [ih]
      congr 1
      simp only [patchPos, List.mapIdx_mapIdx]
      congr 1
      funext i y
      simp only [Function.comp, subP, List.flatMap_cons, hq, if_true, patchSeq_append,
        patchSeq_toList]
    · next hq =>
      rw [ih]
      congr 1
      congr 1
      funext i y
      simp only [subP, List.flatMap_cons, hq, if_false, Option.toList_none, List.nil_append,
        Bool.false_eq_true]

/-! ## Maps -/

theorem bmModify_eq_map {κ α : Type} {P : κ → Prop} {cmp : κ → κ → Ordering} (hc : CmpOn P cmp)
    {k : κ} {f : α → α} {l : List (κ × α)} (hk : P k) (hl : ∀ p ∈ l, P p.1) (hs : BMSorted cmp l) :
    bmModify cmp k f l = l.map fun p => if cmp k p.1 = .eq then (p.1, f p.2) else p := by
  induction l with
  | nil => rfl
  | cons p r ih =>
    have hs' := List.pairwise_cons.mp hs
    simp only [bmModify, List.map_cons]
    split
    · next he =>
      congr 1
      symm
      apply map_id_of_mem
      intro q hq
      have := hs'.1 q hq
      rw [hc.eq_trans k p.1 q.1 hk (hl p (by simp)) (hl q (by simp [hq])) he, this]
      simp
    · rw [ih (fun q hq => hl q (by simp [hq])) hs'.2]

/-- The values in a map patch whose key converts to a key equal to `k`, in order. -/
def hits (E : Env) (kt : Ty) (k : Obj) (new : List (Obj × Obj)) : List Obj :=
  new.filterMap fun q => (fromReflect E kt q.1).bind fun k' =>
    if E.kcmp kt k' k = .eq then some q.2 else none

theorem patchEntries_eq {E : Env} (hO : OrdLaws E) {kt : Ty} (new : List (Obj × Obj))
    (hn : ∀ p ∈ new, p.1.OK E) : ∀ kvs : List (Obj × Obj), BMSorted (E.kcmp kt) kvs →
    (∀ p ∈ kvs, HasTy E kt p.1) →
    new.foldl (patchEntry E kt) kvs =
      kvs.map fun p => (p.1, patchSeq E p.2 (hits E kt p.1 new)) := by
  induction new with
  | nil => intro kvs _ _; simp [hits, patchSeq]
  | cons q new ih =>
    intro kvs hs hk
    have hkeys := patchEntry_keys E kt kvs q
    rw [List.foldl_cons, ih (fun p hp => hn p (by simp [hp])) _ (sorted_of_keys_eq hkeys hs) ?_]
    · cases hf : fromReflect E kt q.1 with
      | none => simp [patchEntry, hf, hits]
      | some k' =>
        have hk' := fromReflect_sound hO kt q.1 (hn q (by simp)) hf
        simp only [patchEntry, hf, bmModify_eq_map (hO.cmpOn kt) hk' hk hs, List.map_map]
        apply List.map_congr_left
        intro p _
        simp only [Function.comp, hits, List.filterMap_cons, hf, Option.bind_some]
        by_cases he : E.kcmp kt k' p.1 = .eq
        · simp [he, patchSeq_cons]
        · simp [he]
    · intro p hp
      have : p.1 ∈ (patchEntry E kt kvs q).map (·.1) := List.mem_map_of_mem hp
      rw [hkeys] at this
      obtain ⟨r, hr, he⟩ := List.mem_map.mp this
      rw [← he]; exact hk r hr

/-- The patches reaching the value under key `k`. -/
def subM (E : Env) (kt : Ty) (k : Obj) (ps : List Obj) : List Obj :=
  ps.flatMap fun v => match v with
    | .map _ _ new => hits E kt k new
    | _ => []

theorem hits_tot (E : Env) (kt : Ty) (k : Obj) (new : List (Obj × Obj)) :
    tot (hits E kt k new) < sizeOf new := by
  induction new with
  | nil => simp [hits, tot]
  | cons q new ih =>
    have h1 : sizeOf q.2 < sizeOf q := by cases q; simp; omega
    simp only [hits, List.filterMap_cons] at ih ⊢
    split
    · simp; omega
    · next w hw =>
      obtain ⟨k', _, hw⟩ := Option.bind_eq_some_iff.mp hw
      split at hw
      · cases hw; simp [tot] at ih ⊢; omega
      · cases hw

theorem subM_tot (E : Env) (kt : Ty) (k : Obj) {ps : List Obj} (h : ps ≠ []) :
    tot (subM E kt k ps) < tot ps := by
  refine (tot_flatMap_le ?_).2 h
  intro v _
  split
  · next new _ => have := hits_tot E kt k new; simp; omega
  · simp [tot]; exact obj_size_pos v

theorem map_entry_ok {E : Env} {u w : Ty} {new : List (Obj × Obj)} (h : (Obj.map u w new).OK E)
    {p : Obj × Obj} (hp : p ∈ new) : p.1.OK E ∧ p.2.OK E :=
  ⟨h.parts (by simp only [Obj.parts, List.mem_append]; exact .inl (List.mem_map_of_mem hp)),
   h.parts (by simp only [Obj.parts, List.mem_append]; exact .inr (List.mem_map_of_mem hp))⟩

theorem subM_ok {E : Env} {kt : Ty} {k : Obj} {ps : List Obj} (h : ∀ p ∈ ps, p.OK E) :
    ∀ p ∈ subM E kt k ps, p.OK E := by
  intro p hp
  obtain ⟨v, hv, hp⟩ := List.mem_flatMap.mp hp
  split at hp
  · next new =>
    obtain ⟨q, hq, hp⟩ := List.mem_filterMap.mp hp
    obtain ⟨k', _, hp⟩ := Option.bind_eq_some_iff.mp hp
    split at hp
    · cases hp; exact (map_entry_ok (h _ hv) hq).2
    · cases hp
  · simp at hp

theorem subM_gf {E : Env} {kt : Ty} {k : Obj} {ps : List Obj} (h : ∀ p ∈ ps, p.EnumsGapFree) :
    ∀ p ∈ subM E kt k ps, p.EnumsGapFree := by
  intro p hp
  obtain ⟨v, hv, hp⟩ := List.mem_flatMap.mp hp
  split at hp
  · next new =>
    obtain ⟨q, hq, hp⟩ := List.mem_filterMap.mp hp
    obtain ⟨k', _, hp⟩ := Option.bind_eq_some_iff.mp hp
    split at hp
    · cases hp
      exact (h _ hv).parts (by simp only [Obj.parts, List.mem_append]; exact .inr (List.mem_map_of_mem hq))
    · cases hp
  · simp at hp

theorem patchMap_seq {E : Env} (hO : OrdLaws E) {kt vt : Ty} (ps : List Obj)
    (hp : ∀ p ∈ ps, p.OK E) : ∀ kvs : List (Obj × Obj), BMSorted (E.kcmp kt) kvs →
    (∀ p ∈ kvs, HasTy E kt p.1) →
    patchSeq E (.map kt vt kvs) ps =
      .map kt vt (kvs.map fun p => (p.1, patchSeq E p.2 (subM E kt p.1 ps))) := by
  induction ps with
  | nil => intro kvs _ _; simp [patchSeq, subM]
  | cons v ps ih =>
    intro kvs hs hk
    rw [patchSeq_cons]
    have ih := ih fun p h => hp p (by simp [h])
    by_cases hv : v.kind = .map
    · cases v <;> simp only [Obj.kind, reduceCtorEq] at hv
      rename_i u w new
      rw [patch_map, patchEntries_eq hO new (fun p h => (map_entry_ok (u := u) (w := w) (hp _ (by simp)) h).1) kvs hs hk,
        ih]
      · simp only [List.map_map]
        congr 1
        apply List.map_congr_left
        intro p _
        simp only [Function.comp, subM, List.flatMap_cons, patchSeq_append]
      · exact sorted_of_keys_eq (by simp [Function.comp_def]) hs
      · intro p hp
        obtain ⟨q, hq, rfl⟩ := List.mem_map.mp hp
        exact hk q hq
    · rw [patch_map_other E kt vt kvs hv, ih kvs hs hk]
      congr 1
      apply List.map_congr_left
      intro p _
      simp only [subM, List.flatMap_cons]
      congr 2
      split
      · simp [Obj.kind] at hv
      · rfl

/-! ## Patching the value of `w` with `w` -/

theorem OK.typed {E : Env} (hO : OrdLaws E) {o : Obj} (h : o.OK E) {t : Ty}
    (ht : o.typeOf = some t) : HasTy E t o :=
  h.isTy hO (by simp [Obj.isTy, ht])

theorem OK.named_nodup {E : Env} (hD : DeclsOK E) (hO : OrdLaws E) {o : Obj} (h : o.OK E) :
    (∀ tag fs, o = .struct tag fs → (fs.map (·.1)).Nodup) ∧
    (∀ tag vn fs, o = .enumS tag vn fs → (fs.map (·.1)).Nodup) := by
  have toObjKeys : ∀ fs : List (String × Value),
      (fs.map fun p => (p.1, p.2.toObj)).map (·.1) = fs.map (·.1) := by
    intro fs; simp [Function.comp_def]
  constructor
  · rintro tag fs rfl
    cases tag with
    | derived n =>
      cases OK.typed hO h rfl with
      | struct _ fds c _ hd h2 _ _ => rw [h2]; exact hD.struct_names n fds c hd
    | dyn ns =>
      cases OK.typed hO h rfl with
      | structValue ns' fs' _ hw ho =>
        rw [Value.toObj] at ho; cases ho
        cases hw with
        | struct _ _ _ hs _ => rw [toObjKeys]; exact strSorted_nodup hs
  · rintro tag vn fs rfl
    cases tag with
    | derived n =>
      cases OK.typed hO h rfl with
      | enumS _ vds c _ fds _ hd hv h2 _ _ => rw [h2]; exact hD.variant_fields n vds c vn fds hd hv
    | dyn ns =>
      cases OK.typed hO h rfl with
      | enumValueS v ns' fs' _ hw ho =>
        rw [Value.toObj] at ho; cases ho
        cases hw with
        | enumS _ _ _ _ hs _ => rw [toObjKeys]; exact strSorted_nodup hs
      | enumValueT v fs' _ hw ho => rw [Value.toObj] at ho; cases ho
      | enumValueU v _ ho => rw [Value.toObj] at ho; cases ho

theorem hiddenLast_of_vis {fs : List Obj} (h : ∀ x ∈ fs, x.isHidden = false) : HiddenLast fs := by
  intro i j x y hi _ hx _
  simp [h x (List.mem_of_getElem? hi)] at hx

theorem toObj_hiddenLast (fs : List Value) : HiddenLast (fs.map fun x => x.toObj) := by
  apply hiddenLast_of_vis
  intro x hx
  obtain ⟨v, _, rfl⟩ := List.mem_map.mp hx
  exact v.toObj_not_hidden

theorem visAt_eq_visPos {fs : List Obj} (h : HiddenLast fs) {i : Nat} {x : Obj}
    (hx : visAt fs i = some x) : (visPos fs)[i]? = some x := by
  unfold visAt at hx
  split at hx
  · next y hy =>
    split at hx
    · cases hx
    · next hv =>
      cases hx
      simp only [visPos]
      rw [filter_getElem?_of_prefix, hy]
      intro j z hj hz
      cases hh : z.isHidden with
      | false => rfl
      | true => have := h j i z x hz hy hh (by simpa using hv); omega
  · cases hx

theorem OK.hiddenLast {E : Env} (hO : OrdLaws E) (hS : SkipsLast E) {o : Obj}
    (h : o.OK E) :
    (∀ tag fs, o = .tupleStruct tag fs → HiddenLast fs) ∧
    (∀ tag fs, o = .tuple tag fs → HiddenLast fs) ∧
    (∀ tag vn fs, o = .enumT tag vn fs → HiddenLast fs) := by
  have key : ∀ {fds : List FieldDef} {fs : List Obj}, fs.length = fds.length →
      (∀ (i j : Nat) fd fd', fds[i]? = some fd → fds[j]? = some fd' → fd.skip = true →
        fd'.skip = false → j < i) →
      (∀ (i : Nat) fd x, fds[i]? = some fd → fs[i]? = some x → fd.skip = true →
        x.isHidden = true) →
      (∀ (i : Nat) fd x, fds[i]? = some fd → fs[i]? = some x → fd.skip = false → HasTy E fd.ty x) →
      HiddenLast fs := by
    intro fds fs hl hs h3 h4 i j x y hi hj hx hy
    obtain ⟨fi, hfi⟩ := align_pos hl hi
    obtain ⟨fj, hfj⟩ := align_pos hl hj
    refine hs i j fi fj hfi hfj ?_ ?_
    · cases hsk : fi.skip with
      | true => rfl
      | false => simp [(h4 i fi x hfi hi hsk).not_hidden] at hx
    · cases hsk : fj.skip with
      | false => rfl
      | true => simp [h3 j fj y hfj hj hsk] at hy
  refine ⟨?_, ?_, ?_⟩
  · rintro tag fs rfl
    cases tag with
    | derived n =>
      cases OK.typed hO h rfl with
      | tupleStruct _ fds c _ hd h2 h3 h4 => exact key h2 (hS.1 n fds c hd) h3 h4
    | dyn =>
      cases OK.typed hO h rfl with
      | tupleStructValue fs' _ hw ho => rw [Value.toObj] at ho; cases ho; exact toObj_hiddenLast _
  · rintro tag fs rfl
    cases tag with
    | typed ts =>
      cases OK.typed hO h rfl with
      | tuple _ _ hl h =>
        apply hiddenLast_of_vis
        intro x hx
        obtain ⟨i, hi⟩ := List.getElem?_of_mem hx
        obtain ⟨t, ht⟩ := align_pos hl hi
        exact (h i t x ht hi).not_hidden
    | dyn =>
      cases OK.typed hO h rfl with
      | tupleValue fs' _ hw ho => rw [Value.toObj] at ho; cases ho; exact toObj_hiddenLast _
  · rintro tag vn fs rfl
    cases tag with
    | derived n =>
      cases OK.typed hO h rfl with
      | enumT _ vds c _ fds _ hd hv h2 h3 h4 => exact key h2 (hS.2 n vds c vn fds hd hv) h3 h4
    | dyn =>
      cases OK.typed hO h rfl with
      | enumValueS v ns' fs' _ hw ho => rw [Value.toObj] at ho; cases ho
      | enumValueT v fs' _ hw ho => rw [Value.toObj] at ho; cases ho; exact toObj_hiddenLast _
      | enumValueU v _ ho => rw [Value.toObj] at ho; cases ho

theorem patchNamed_absorb {E : Env} {src : Obj} {L : List (String × Obj)}
    (h : ∀ p ∈ L, ∀ w, src.field p.1 = some w → patch E p.2 w = p.2) :
    patchNamed E src L = L := by
  apply map_id_of_mem
  intro p hp
  cases hf : src.field p.1 with
  | none => rfl
  | some w => simp [patchO, h p hp w hf]

theorem patchPos_absorb {E : Env} {src : Obj} {L : List Obj}
    (h : ∀ (i : Nat) y w, L[i]? = some y → src.fieldAt i = some w → patch E y w = y) :
    patchPos E src L = L := by
  apply List.ext_getElem?
  intro i
  simp only [patchPos, List.getElem?_mapIdx]
  cases hy : L[i]? with
  | none => rfl
  | some y =>
    cases hf : src.fieldAt i with
    | none => simp [patchO]
    | some w => simp [patchO, h i y w hy hf]

theorem sorted_key_unique {κ α : Type} {P : κ → Prop} {cmp : κ → κ → Ordering} (hc : CmpOn P cmp)
    {l : List (κ × α)} (hl : ∀ p ∈ l, P p.1) (hs : BMSorted cmp l) {p q : κ × α} (hp : p ∈ l)
    (hq : q ∈ l) (he : cmp p.1 q.1 = .eq) : p = q := by
  induction l with
  | nil => simp at hp
  | cons a r ih =>
    obtain ⟨h1, h2⟩ := List.pairwise_cons.mp hs
    rcases List.mem_cons.mp hp with rfl | hp' <;> rcases List.mem_cons.mp hq with rfl | hq'
    · rfl
    · rw [h1 q hq'] at he; cases he
    · have := hc.eq_symm (hl p hp) (hl q hq) he
      rw [h1 p hp'] at this; cases this
    · exact ih (fun p hp => hl p (by simp [hp])) h2 hp' hq'

/-- The keys of a proper map, as `Value`s, are distinct. -/
theorem map_value_keys {E : Env} (hO : OrdLaws E) (hK : KeysShown E) {kt : Ty}
    {kvs : List (Obj × Obj)} (hs : BMSorted (E.kcmp kt) kvs) (hk : ∀ p ∈ kvs, HasTy E kt p.1) :
    (kvs.map fun p => (p.1.toValue, p.2.toValue)).Pairwise
      fun p q => Value.cmp q.1 p.1 ≠ .eq := by
  rw [List.pairwise_map]
  refine List.Pairwise.imp_of_mem ?_ hs
  intro p q hp hq h he
  have := hK kt q.1 p.1 (hk q hq) (hk p hp) he
  have := (hO.cmpOn kt).eq_symm (hk q hq) (hk p hp) this
  rw [h] at this; cases this

/-- Patching the `Value` of `w` with `w` changes nothing. -/
theorem Obj.NoGaps.last {E : Env} (hO : OrdLaws E) {o : Obj} (h : o.OK E) (hg : o.NoGaps) :
    (∀ tag fs, o = .tupleStruct tag fs → HiddenLast fs) ∧
    (∀ tag fs, o = .tuple tag fs → HiddenLast fs) ∧
    (∀ tag vn fs, o = .enumT tag vn fs → HiddenLast fs) := by
  refine ⟨hg.here.1, ?_, hg.here.2⟩
  rintro tag fs rfl
  cases tag with
  | typed ts =>
    cases OK.typed hO h rfl with
    | tuple _ _ hl h =>
      apply hiddenLast_of_vis
      intro x hx
      obtain ⟨i, hi⟩ := List.getElem?_of_mem hx
      obtain ⟨t, ht⟩ := align_pos hl hi
      exact (h i t x ht hi).not_hidden
  | dyn =>
    cases OK.typed hO h rfl with
    | tupleValue fs' _ hw ho => rw [Value.toObj] at ho; cases ho; exact toObj_hiddenLast _

theorem toValue_absorbs {E : Env} (hD : DeclsOK E) (hO : OrdLaws E) (hK : KeysShown E)
    (w : Obj) (hw : w.OK E) (hg : w.NoGaps) :
    patch E w.toValue.toObj w = w.toValue.toObj := by
  induction w using Obj.ind with
  | h w ih =>
    -- named fields
    have named : ∀ {fs : List (String × Obj)}, (fs.map (·.1)).Nodup →
        (∀ p ∈ visFields fs, (p.2.OK E ∧ p.2.NoGaps) ∧ sizeOf p.2 < sizeOf w) →
        (∀ n, w.field n = lookup n (visFields fs)) →
        ∀ (L : List (String × Obj)), (∀ p ∈ L, ∃ q ∈ visFields fs, p = (q.1, q.2.toValue.toObj)) →
        patchNamed E w L = L := by
      intro fs hn hok hf L hL
      apply patchNamed_absorb
      intro p hp x hx
      obtain ⟨q, hq, rfl⟩ := hL p hp
      have hnv : ((visFields fs).map (·.1)).Nodup := hn.sublist (List.filter_sublist.map _)
      have := lookup_of_mem_nodup hnv (n := q.1) (x := q.2) hq
      rw [hf, this] at hx
      cases hx
      exact ih q.2 (hok q hq).2 (hok q hq).1.1 (hok q hq).1.2
    have posn : ∀ {fs : List Obj}, HiddenLast fs →
        (∀ x ∈ visPos fs, (x.OK E ∧ x.NoGaps) ∧ sizeOf x < sizeOf w) →
        (∀ i, w.fieldAt i = visAt fs i) →
        patchPos E w ((visPos fs).map fun x => x.toValue.toObj) =
          (visPos fs).map fun x => x.toValue.toObj := by
      intro fs hl hok hf
      apply patchPos_absorb
      intro i y x hy hx
      rw [hf] at hx
      have := visAt_eq_visPos hl hx
      obtain ⟨z, hz, rfl⟩ := getElem?_map_some hy
      rw [this] at hz; cases hz
      have := hok x (List.mem_of_getElem? this)
      exact ih x this.2 this.1.1 this.1.2
    have visSz : ∀ {fs : List (String × Obj)} {p}, p ∈ visFields fs → sizeOf p.2 < sizeOf fs :=
      fun h => sizeOf_snd_lt_of_mem (visFields_sub h)
    have posSz : ∀ {fs : List Obj} {p}, p ∈ visPos fs → sizeOf p < sizeOf fs :=
      fun h => List.sizeOf_lt_of_mem (visPos_sub h)
    have derivedL : ∀ {fs : List (String × Obj)} p,
        p ∈ (bmOfList strCmp ((visFields fs).map fun p => (p.1, p.2.toValue))).map
          (fun p => (p.1, p.2.toObj)) → ∃ q ∈ visFields fs, p = (q.1, q.2.toValue.toObj) := by
      intro fs p hp
      obtain ⟨a, ha, rfl⟩ := List.mem_map.mp hp
      obtain ⟨q, hq, rfl⟩ := List.mem_map.mp (mem_bmOfList_str ha)
      exact ⟨q, hq, rfl⟩
    have dynL : ∀ {fs : List (String × Obj)}, (∀ p ∈ fs, p.2.isHidden = false) → ∀ p,
        p ∈ (fs.map fun p => (p.1, p.2.toValue)).map (fun p => (p.1, p.2.toObj)) →
        ∃ q ∈ visFields fs, p = (q.1, q.2.toValue.toObj) := by
      intro fs hv p hp
      simp only [List.map_map] at hp
      obtain ⟨q, hq, rfl⟩ := List.mem_map.mp hp
      exact ⟨q, List.mem_filter.mpr ⟨hq, by simp [hv q hq]⟩, rfl⟩
    have dv : w.DynVis := by obtain ⟨t, h⟩ := hw; exact h.dynVis
    have nd := OK.named_nodup hD hO hw
    have hl := hg.here
    cases w with
    | scalar s => rw [Obj.toValue, Value.toObj, patch_scalar]; split <;> rfl
    | nonzero k n =>
      rw [Obj.toValue, Value.toObj, patch_scalar]
      simp [Obj.isTy, Obj.typeOf]
    | hidden d => exact absurd hw.not_hidden (by simp [Obj.isHidden])
    | struct tag fs =>
      have hok : ∀ p ∈ visFields fs, (p.2.OK E ∧ p.2.NoGaps) ∧ sizeOf p.2 < sizeOf (Obj.struct tag fs) := by
        intro p hp
        refine ⟨⟨hw.parts (List.mem_map_of_mem hp), hg.parts (List.mem_map_of_mem hp)⟩, ?_⟩
        have := visSz hp; simp; omega
      cases tag with
      | derived n =>
        rw [toValue_struct, Value.toObj, patch_struct]
        simp only [Obj.kind, if_true]
        rw [named (nd.1 _ _ rfl) hok (fun _ => rfl) _ derivedL]
      | dyn ns =>
        rw [Obj.toValue, Value.toObj, patch_struct]
        simp only [Obj.kind, if_true]
        rw [named (nd.1 _ _ rfl) hok (fun _ => rfl) _ (dynL dv)]
    | enumS tag vn fs =>
      have hok : ∀ p ∈ visFields fs, (p.2.OK E ∧ p.2.NoGaps) ∧ sizeOf p.2 < sizeOf (Obj.enumS tag vn fs) := by
        intro p hp
        refine ⟨⟨hw.parts (List.mem_map_of_mem hp), hg.parts (List.mem_map_of_mem hp)⟩, ?_⟩
        have := visSz hp; simp; omega
      cases tag with
      | derived n =>
        rw [toValue_enumS, Value.toObj, patch_enum_dyn E rfl rfl]
        simp only [Obj.kind, Obj.variantName, if_true, patchFields]
        rw [named (nd.2 _ _ _ rfl) hok (fun _ => rfl) _ derivedL]
      | dyn ns =>
        rw [Obj.toValue, Value.toObj, patch_enum_dyn E rfl rfl]
        simp only [Obj.kind, Obj.variantName, if_true, patchFields]
        rw [named (nd.2 _ _ _ rfl) hok (fun _ => rfl) _ (dynL dv)]
    | tupleStruct tag fs =>
      have := posn (hl.1 _ _ rfl) (fun p hp => ⟨⟨hw.parts hp, hg.parts hp⟩, by have := posSz hp; simp; omega⟩)
        (fun _ => rfl)
      rw [toValue_tupleStruct, Value.toObj, patch_tupleStruct]
      simp only [Obj.kind, if_true, List.map_map, Function.comp_def]
      rw [this]
    | tuple tag fs =>
      have hall : visPos fs = fs := by
        rw [visPos, List.filter_eq_self]
        intro x hx
        cases tag with
        | typed ts =>
          cases OK.typed hO hw rfl with
          | tuple _ _ hl h =>
            obtain ⟨i, hi⟩ := List.getElem?_of_mem hx
            obtain ⟨t, ht⟩ := align_pos hl hi
            simp [(h i t x ht hi).not_hidden]
        | dyn =>
          cases OK.typed hO hw rfl with
          | tupleValue fs' _ hw ho =>
            rw [Value.toObj] at ho; cases ho
            obtain ⟨v, _, rfl⟩ := List.mem_map.mp hx
            simp [v.toObj_not_hidden]
      have := posn (hiddenLast_of_vis (by rw [← hall]; intro x hx; simpa using (List.mem_filter.mp hx).2)) (fun p hp => ⟨⟨hw.parts hp, hg.parts hp⟩, by have := posSz hp; simp; omega⟩)
        (fun _ => rfl)
      rw [hall] at this
      rw [Obj.toValue, Value.toObj, patch_tuple]
      simp only [Obj.kind, if_true, List.map_map, Function.comp_def]
      rw [this]
    | enumT tag vn fs =>
      have := posn (hl.2 _ _ _ rfl) (fun p hp => ⟨⟨hw.parts hp, hg.parts hp⟩, by have := posSz hp; simp; omega⟩)
        (fun _ => rfl)
      rw [toValue_enumT, Value.toObj, patch_enum_dyn E rfl rfl]
      simp only [Obj.kind, Obj.variantName, if_true, patchFields, List.map_map, Function.comp_def]
      rw [this]
    | enumU tag vn =>
      rw [Obj.toValue, Value.toObj, patch_enum_dyn E rfl rfl]
      simp [Obj.kind, Obj.variantName, patchFields]
    | array t xs => rw [Obj.toValue, Value.toObj, patch_vec]; simp [Obj.kind]
    | vec t xs =>
      rw [Obj.toValue, Value.toObj, patch_vec]
      simp only [Obj.kind, if_true, List.map_map, Function.comp_def]
      rw [patchPos_absorb]
      intro i y x hy hx
      obtain ⟨z, hz, rfl⟩ := getElem?_map_some hy
      simp only [Obj.fieldAt] at hx
      rw [hx] at hz; cases hz
      have hm := List.mem_of_getElem? hx
      exact ih x (by have := List.sizeOf_lt_of_mem hm; simp; omega) (hw.parts hm) (hg.parts hm)
    | map kt vt kvs =>
      cases OK.typed hO hw rfl with
      | map _ _ _ hs hk hv =>
        have hvk := map_value_keys hO hK hs hk
        have hperm := bmCollect_perm hvk
        have hwf : (Obj.map kt vt kvs).toValue.WF := hw.toValue_wf
        rw [Obj.toValue] at hwf ⊢
        cases hwf with
        | map _ hs' hk' hv' =>
          have hty := valueMap_hasTy hO hs' hk' hv'
          rw [Value.toObj] at hty ⊢
          cases hty with
          | map _ _ _ a b c =>
            rw [patch_map, patchEntries_eq hO kvs (fun p hp => ⟨_, hk p hp⟩) _ a b]
            congr 1
            apply map_id_of_mem
            intro p hp
            have hseq : ∀ l : List Obj, (∀ x ∈ l, patch E p.2 x = p.2) → patchSeq E p.2 l = p.2 := by
              intro l hl
              induction l with
              | nil => rfl
              | cons x l ih =>
                rw [patchSeq_cons, hl x (by simp)]
                exact ih fun y hy => hl y (by simp [hy])
            rw [hseq]
            intro x hx
            obtain ⟨q, hq, hx⟩ := List.mem_filterMap.mp hx
            rw [fromReflect_value] at hx
            simp only [Option.bind_some] at hx
            split at hx
            · next he =>
              cases hx
              obtain ⟨r, hr, rfl⟩ := List.mem_map.mp hp
              obtain ⟨q', hq', rfl⟩ := List.mem_map.mp (hperm.mem_iff.mp hr)
              simp only at he ⊢
              rw [hO.value _ _ (hk q hq).toValue_wf (hk q' hq').toValue_wf] at he
              have := sorted_key_unique (hO.cmpOn kt) hk hs hq hq'
                (hK kt _ _ (hk q hq) (hk q' hq') he)
              subst this
              exact ih q.2 (by have := sizeOf_snd_lt_of_mem hq; simp; omega) ⟨_, hv q hq⟩
                (hg.parts (by simp only [Obj.parts, List.mem_append]; exact .inr (List.mem_map_of_mem hq)))
            · cases hx

/-! ## Idempotence -/

theorem isTy_scalar_inv {o : Obj} {k : ScalarKind} (h : o.isTy (.scalar k) = true) :
    ∃ s, o = .scalar s ∧ s.kind = k := by
  cases o with
  | scalar s => exact ⟨s, rfl, by simpa [Obj.isTy, Obj.typeOf] using h⟩
  | struct tag _ => cases tag <;> simp [Obj.isTy, Obj.typeOf] at h
  | tupleStruct tag _ => cases tag <;> simp [Obj.isTy, Obj.typeOf] at h
  | tuple tag _ => cases tag <;> simp [Obj.isTy, Obj.typeOf] at h
  | enumS tag _ _ => cases tag <;> simp [Obj.isTy, Obj.typeOf] at h
  | enumT tag _ _ => cases tag <;> simp [Obj.isTy, Obj.typeOf] at h
  | enumU tag _ => cases tag <;> simp [Obj.isTy, Obj.typeOf] at h
  | _ => simp [Obj.isTy, Obj.typeOf] at h

/-- `ps` acts as a constant function on `C`. -/
def ConstOn (E : Env) (C : Obj → Prop) (ps : List Obj) : Prop :=
  ∃ c, ∀ x, C x → patchSeq E x ps = c

theorem idem_of_const {E : Env} {C : Obj → Prop} {ps : List Obj}
    (hC : ∀ p ∈ ps, ∀ x, C x → C (patch E x p)) (h : ConstOn E C ps) {x : Obj} (hx : C x) :
    patchSeq E (patchSeq E x ps) ps = patchSeq E x ps := by
  have closed : ∀ (qs : List Obj), (∀ p ∈ qs, p ∈ ps) → ∀ x, C x → C (patchSeq E x qs) := by
    intro qs
    induction qs with
    | nil => intro _ x h; exact h
    | cons p qs ih =>
      intro hs x h
      exact ih (fun q hq => hs q (by simp [hq])) _ (hC p (hs p (by simp)) x h)
  obtain ⟨c, hc⟩ := h
  rw [hc x hx, hc c]
  rw [← hc x hx]
  exact closed ps (fun _ h => h) x hx

theorem constOn_of_mem {E : Env} {C : Obj → Prop} {ps : List Obj} {p c : Obj}
    (hC : ∀ p ∈ ps, ∀ x, C x → C (patch E x p)) (hp : p ∈ ps) (h : ∀ x, C x → patch E x p = c) :
    ConstOn E C ps := by
  induction ps with
  | nil => simp at hp
  | cons q ps ih =>
    rcases List.mem_cons.mp hp with rfl | hp
    · refine ⟨patchSeq E c ps, fun x hx => ?_⟩
      rw [patchSeq_cons, h x hx]
    · obtain ⟨d, hd⟩ := ih (fun p hp => hC p (by simp [hp])) hp
      refine ⟨d, fun x hx => ?_⟩
      rw [patchSeq_cons]
      exact hd _ (hC q (by simp) x hx)

theorem patchSeq_id {E : Env} {x : Obj} {ps : List Obj} (h : ∀ p ∈ ps, patch E x p = x) :
    patchSeq E x ps = x := by
  induction ps with
  | nil => rfl
  | cons p ps ih => rw [patchSeq_cons, h p (by simp), ih fun q hq => h q (by simp [hq])]

/-- If every patch is, on `C`, either constant or the identity, the sequence is idempotent. -/
theorem idem_of_const_or_id {E : Env} {C : Obj → Prop} {ps : List Obj}
    (hC : ∀ p ∈ ps, ∀ x, C x → C (patch E x p))
    (h : ∀ p ∈ ps, (∃ c, ∀ x, C x → patch E x p = c) ∨ ∀ x, C x → patch E x p = x) {x : Obj}
    (hx : C x) : patchSeq E (patchSeq E x ps) ps = patchSeq E x ps := by
  by_cases hc : ∃ p ∈ ps, ∃ c, ∀ x, C x → patch E x p = c
  · obtain ⟨p, hp, c, hc⟩ := hc
    exact idem_of_const hC (constOn_of_mem hC hp hc) hx
  · have hid : patchSeq E x ps = x := patchSeq_id fun p hp => by
      rcases h p hp with h | h
      · exact absurd ⟨p, hp, h⟩ hc
      · exact h x hx
    rw [hid, hid]

theorem fromReflect_enumValue_name {E : Env} {v y : Obj} (h : fromReflect E .enumValue v = some y) :
    y.variantName = v.variantName ∧ y.kind = .enum ∧ y.typeOf = some .enumValue := by
  rw [fromReflect] at h
  cases v <;> simp [Obj.variantKind, Obj.variantName] at h <;>
    (subst h; simp [Value.toObj, Obj.variantName, Obj.kind, Obj.typeOf])

theorem fromReflect_enumValue_some (E : Env) {v : Obj} (h : v.kind = .enum) :
    ∃ y, fromReflect E .enumValue v = some y := by
  rw [fromReflect]
  cases v <;> simp [Obj.kind] at h <;> simp [Obj.variantKind, Obj.variantName]

theorem namedIter_sub {v : Obj} (hv : v.DynVis) {p : String × Obj} (hp : p ∈ v.namedIter) :
    (∀ tag fs, v = .struct tag fs → p ∈ visFields fs) ∧
    (∀ tag vn fs, v = .enumS tag vn fs → p ∈ visFields fs) := by
  constructor
  · rintro tag fs rfl
    cases tag with
    | derived => exact hp
    | dyn => exact List.mem_filter.mpr ⟨dynIter_mem hp, by simp [hv p (dynIter_mem hp)]⟩
  · rintro tag vn fs rfl
    cases tag with
    | derived =>
      simp only [Obj.namedIter] at hp
      refine List.mem_filter.mpr ⟨(List.takeWhile_prefix _).subset hp, ?_⟩
      have := List.all_takeWhile (p := fun p : String × Obj => !p.2.isHidden) (l := fs)
      exact List.all_eq_true.mp this p hp
    | dyn => exact List.mem_filter.mpr ⟨dynIter_mem hp, by simp [hv p (dynIter_mem hp)]⟩

/-- Patching the `EnumValue` built from `v` with `v` changes nothing. -/
theorem enumValue_absorbs {E : Env} (hD : DeclsOK E) (hO : OrdLaws E) (hK : KeysShown E)
    {v y : Obj} (hv : v.OK E) (hg : v.EnumsGapFree) (h : fromReflect E .enumValue v = some y) :
    patch E y v = y := by
  obtain ⟨hn, hk, ht⟩ := fromReflect_enumValue_name h
  have dv : v.DynVis := by obtain ⟨t, h⟩ := hv; exact h.dynVis
  have hvk : v.kind = .enum := by
    cases v <;> simp [Obj.kind] <;> simp [fromReflect, Obj.variantKind] at h
  rw [patch_enum_dyn E hk ht, if_pos hvk, if_pos hn.symm]
  rw [fromReflect] at h
  cases v <;> simp [Obj.kind] at hvk
  case enumS tag vn fs =>
    simp [Obj.variantKind, Obj.variantName] at h
    subst h
    simp only [Value.toObj, patchFields]
    rw [patchNamed_absorb]
    intro p hp x hx
    obtain ⟨q, hq, rfl⟩ := List.mem_map.mp hp
    obtain ⟨r, hr, rfl⟩ := List.mem_map.mp (mem_bmOfList_str (by rw [dynStruct, svOfList_eq] at hq; exact hq))
    have hr' := (namedIter_sub dv hr).2 _ _ _ rfl
    have hnd := (OK.named_nodup hD hO hv).2 _ _ _ rfl
    have hnv : ((visFields fs).map (·.1)).Nodup := hnd.sublist (List.filter_sublist.map _)
    have := lookup_of_mem_nodup hnv (n := r.1) (x := r.2) hr'
    simp only [Obj.field] at hx
    rw [this] at hx; cases hx
    exact toValue_absorbs hD hO hK r.2 (hv.parts (List.mem_map_of_mem hr'))
      (hg.here rfl _ (List.mem_map_of_mem hr'))
  case enumT tag vn fs =>
    simp [Obj.variantKind, Obj.variantName] at h
    subst h
    simp only [Value.toObj, patchFields, List.map_map]
    rw [patchPos_absorb]
    intro i z x hz hx
    obtain ⟨r, hr, rfl⟩ := getElem?_map_some hz
    have hxok := OK_fieldAt hv hx
    simp only [Obj.posIter] at hr
    have hr' : fs[i]? = some r := by
      have hp := List.takeWhile_prefix (l := fs) (fun x : Obj => !x.isHidden)
      obtain ⟨t, ht⟩ := hp
      rw [← ht, List.getElem?_append_left (List.getElem?_eq_some_iff.mp hr).1, hr]
    simp only [Obj.fieldAt, visAt, hr'] at hx
    split at hx
    · cases hx
    · cases hx
      refine toValue_absorbs hD hO hK _ hxok (hg.here rfl _ (List.mem_filter.mpr ⟨List.mem_of_getElem? hr', ?_⟩))
      simp [hxok.not_hidden]
  case enumU tag vn =>
    simp [Obj.variantKind, Obj.variantName] at h
    subst h
    simp [Value.toObj, patchFields]

/-- On dynamic enums: either all enum patches carry one variant name, or the outcome does not depend
on the patched enum. -/
theorem dynEnum_classify {E : Env} (hO : OrdLaws E) {ps : List Obj} (hp : ∀ p ∈ ps, p.OK E) :
    (∃ m, ∀ p ∈ ps, p.kind = .enum → p.variantName = m) ∨
      ConstOn E (HasTy E .enumValue) ps := by
  have shape : ∀ {x}, HasTy E .enumValue x → x.kind = .enum ∧ x.typeOf = some .enumValue := by
    intro x hx
    cases hx <;> (rename_i ho; subst ho; simp [Value.toObj, Obj.kind, Obj.typeOf])
  have name : ∀ {x v}, HasTy E .enumValue x → v.kind = .enum →
      (patch E x v).variantName = v.variantName := by
    intro x v hx hv
    rw [patch_enum_dyn E (shape hx).1 (shape hx).2, if_pos hv]
    split
    · next h => rw [h]; cases x <;> rfl
    · obtain ⟨y, hy⟩ := fromReflect_enumValue_some E hv
      rw [hy]; exact (fromReflect_enumValue_name hy).1
  induction ps with
  | nil => exact .inl ⟨none, by simp⟩
  | cons p ps ih =>
    rcases ih fun q hq => hp q (by simp [hq]) with ⟨m, hm⟩ | ⟨c, hc⟩
    · by_cases hpk : p.kind = .enum
      · by_cases hpm : p.variantName = m
        · exact .inl ⟨m, by intro q hq hk; rcases List.mem_cons.mp hq with rfl | hq
                            · exact hpm
                            · exact hm q hq hk⟩
        · by_cases hex : ∃ q ∈ ps, q.kind = .enum
          · right
            -- the first enum patch in `ps` replaces the whole
            have key : ∀ {qs : List Obj}, (∀ q ∈ qs, q ∈ ps) → (∃ q ∈ qs, q.kind = .enum) →
                ∃ c, ∀ x, HasTy E .enumValue x → x.variantName = p.variantName →
                  patchSeq E x qs = c := by
              intro qs
              induction qs with
              | nil => intro _ h; simp at h
              | cons q qs ihq =>
                intro hsub hexq
                by_cases hq : q.kind = .enum
                · obtain ⟨y, hy⟩ := fromReflect_enumValue_some E hq
                  refine ⟨patchSeq E y qs, fun x hx hxn => ?_⟩
                  rw [patchSeq_cons, patch_enum_dyn E (shape hx).1 (shape hx).2, if_pos hq, if_neg,
                    hy]
                  · rfl
                  · rw [hm q (hsub q (by simp)) hq, hxn]; exact fun h => hpm h.symm
                · obtain ⟨c, hc⟩ := ihq (fun r hr => hsub r (by simp [hr])) (by
                    obtain ⟨r, hr, hrk⟩ := hexq
                    rcases List.mem_cons.mp hr with rfl | hr
                    · exact absurd hrk hq
                    · exact ⟨r, hr, hrk⟩)
                  refine ⟨c, fun x hx hxn => ?_⟩
                  rw [patchSeq_cons, patch_enum_dyn E (shape hx).1 (shape hx).2, if_neg hq]
                  exact hc x hx hxn
            obtain ⟨c, hc⟩ := key (fun _ h => h) hex
            refine ⟨c, fun x hx => ?_⟩
            rw [patchSeq_cons]
            exact hc _ (patch_hasTy hO p (hp p (by simp)) hx) (name hx hpk)
          · exact .inl ⟨p.variantName, by
              intro q hq hk; rcases List.mem_cons.mp hq with rfl | hq
              · rfl
              · exact absurd ⟨q, hq, hk⟩ hex⟩
      · exact .inl ⟨m, by intro q hq hk; rcases List.mem_cons.mp hq with rfl | hq
                          · exact absurd hk hpk
                          · exact hm q hq hk⟩
    · right
      refine ⟨c, fun x hx => ?_⟩
      rw [patchSeq_cons]
      exact hc _ (patch_hasTy hO p (hp p (by simp)) hx)

/-- Applying the same patches twice is the same as applying them once. -/
theorem patchSeq_idem {E : Env} (hD : DeclsOK E) (hO : OrdLaws E) (hK : KeysShown E)
    (N : Nat) : ∀ ps : List Obj, tot ps ≤ N → (∀ p ∈ ps, p.OK E) → (∀ p ∈ ps, p.EnumsGapFree) →
    ∀ x : Obj, (x.isHidden = true ∨ x.OK E) →
      patchSeq E (patchSeq E x ps) ps = patchSeq E x ps := by
  induction N with
  | zero =>
    intro ps hps _ _ x _
    cases ps with
    | nil => rfl
    | cons p ps => have := obj_size_pos p; simp [tot] at hps; omega
  | succ N ih =>
    intro ps hps hok hgf x hx
    by_cases hne : ps = []
    · subst hne; rfl
    have ih : ∀ qs : List Obj, tot qs < tot ps → (∀ p ∈ qs, p.OK E) →
        (∀ p ∈ qs, p.EnumsGapFree) → ∀ x : Obj, (x.isHidden = true ∨ x.OK E) → patchSeq E (patchSeq E x qs) qs = patchSeq E x qs :=
      fun qs hq => ih qs (by omega)
    -- named and positional fields
    have named : ∀ (q : Obj → Bool) (g : List (String × Obj) → Obj),
        (∀ fs, ∀ v ∈ ps, patch E (g fs) v = if q v then g (patchNamed E v fs) else g fs) →
        ∀ fs : List (String × Obj), (∀ p ∈ fs, p.2.isHidden = true ∨ p.2.OK E) →
        patchSeq E (patchSeq E (g fs) ps) ps = patchSeq E (g fs) ps := by
      intro q g hg fs hfs
      rw [patchNamed_seq E q g ps hg, patchNamed_seq E q g ps hg]
      congr 1
      simp only [List.map_map]
      apply List.map_congr_left
      intro p hp
      simp only [Function.comp]
      rw [ih _ (subN_tot q p.1 hne) (subN_ok hok) (subN_gf hgf) p.2 (hfs p hp)]
    have posn : ∀ (q : Obj → Bool) (g : List Obj → Obj),
        (∀ fs, ∀ v ∈ ps, patch E (g fs) v = if q v then g (patchPos E v fs) else g fs) →
        ∀ fs : List Obj, (∀ p ∈ fs, p.isHidden = true ∨ p.OK E) →
        patchSeq E (patchSeq E (g fs) ps) ps = patchSeq E (g fs) ps := by
      intro q g hg fs hfs
      rw [patchPos_seq E q g ps hg, patchPos_seq E q g ps hg]
      congr 1
      apply List.ext_getElem?
      intro i
      simp only [List.getElem?_mapIdx]
      cases hy : fs[i]? with
      | none => rfl
      | some y =>
        simp only [Option.map_some, Option.some.injEq]
        exact ih _ (subP_tot q i hne) (subP_ok hok) (subP_gf hok hgf) y (hfs y (List.mem_of_getElem? hy))
    rcases hx with hh | hx
    · rw [patchSeq_hidden E hh, patchSeq_hidden E hh]
    have fieldsOK : ∀ {fs : List (String × Obj)}, (∀ p ∈ visFields fs, p.2 ∈ x.parts) →
        ∀ p ∈ fs, p.2.isHidden = true ∨ p.2.OK E := by
      intro fs h p hp
      cases hh : p.2.isHidden with
      | true => exact .inl rfl
      | false => exact .inr (hx.parts (h p (List.mem_filter.mpr ⟨hp, by simp [hh]⟩)))
    have posOK : ∀ {fs : List Obj}, (∀ p ∈ visPos fs, p ∈ x.parts) →
        ∀ p ∈ fs, p.isHidden = true ∨ p.OK E := by
      intro fs h p hp
      cases hh : p.isHidden with
      | true => exact .inl rfl
      | false => exact .inr (hx.parts (h p (List.mem_filter.mpr ⟨hp, by simp [hh]⟩)))
    -- derived enums
    have derived : ∀ {n : String}, x.kind = .enum → x.typeOf = some (.named n) →
        patchSeq E (patchSeq E x ps) ps = patchSeq E x ps := by
      intro n hk ht
      let C : Obj → Prop := fun y => HasTy E (.named n) y ∧ y.kind = .enum ∧
        y.typeOf = some (.named n)
      have hxC : C x := ⟨OK.typed hO hx ht, hk, ht⟩
      have tyOf : ∀ {y z}, HasTy E (.named n) y → y.kind = .enum → HasTy E (.named n) z →
          z.kind = .enum ∧ z.typeOf = some (.named n) := by
        intro y z hy hyk hz
        cases hy <;> simp [Obj.kind] at hyk <;> cases hz <;> simp_all [Obj.kind, Obj.typeOf]
      have hC : ∀ p ∈ ps, ∀ y, C y → C (patch E y p) := by
        intro p hp y hy
        have := patch_hasTy hO p (hok p hp) hy.1
        exact ⟨this, tyOf hy.1 hy.2.1 this⟩
      by_cases hc : ∃ p ∈ ps, ∃ c, ∀ x, C x → patch E x p = c
      · obtain ⟨p, hp, c, hc⟩ := hc
        exact idem_of_const hC (constOn_of_mem hC hp hc) hxC
      · have part : ∀ y, C y → ∀ p ∈ ps, patch E y p =
            if p.kind = .enum ∧ p.variantName = y.variantName then patchFields E p y else y := by
          intro y hy p hp
          rw [patch_enum_derived E hy.2.1 hy.2.2]
          split
          · next h =>
            refine absurd ⟨p, hp, p, fun z hz => ?_⟩ hc
            rw [patch_enum_derived E hz.2.1 hz.2.2, if_pos h]
          · next h =>
            split
            · next hpk =>
              split
              · next w hw =>
                refine absurd ⟨p, hp, w, fun z hz => ?_⟩ hc
                rw [patch_enum_derived E hz.2.1 hz.2.2, if_neg h, if_pos hpk, hw]
              · simp [hpk]
            · next hpk => simp [hpk]
        have partG : ∀ y, y.kind = .enum → y.typeOf = some (.named n) → ∀ p ∈ ps, patch E y p =
            if p.kind = .enum ∧ p.variantName = y.variantName then patchFields E p y else y := by
          intro y hyk hyt p hp
          have := part x hxC p hp
          rw [patch_enum_derived E hyk hyt]
          split
          · next h =>
            refine absurd ⟨p, hp, p, fun z hz => ?_⟩ hc
            rw [patch_enum_derived E hz.2.1 hz.2.2, if_pos h]
          · next h =>
            split
            · next hpk =>
              split
              · next w hw =>
                refine absurd ⟨p, hp, w, fun z hz => ?_⟩ hc
                rw [patch_enum_derived E hz.2.1 hz.2.2, if_neg h, if_pos hpk, hw]
              · simp [hpk]
            · next hpk => simp [hpk]
        cases x <;> simp [Obj.kind] at hk
        case enumS tag vn fs =>
          cases tag <;> simp [Obj.typeOf] at ht
          subst ht
          refine named (fun v => decide (v.kind = .enum ∧ v.variantName = some vn))
            (.enumS (.derived _) vn) ?_ fs (fieldsOK fun p hp => List.mem_map_of_mem hp)
          intro fs v hv
          rw [partG _ rfl rfl v hv]
          simp only [patchFields, decide_eq_true_eq]
          rfl
        case enumT tag vn fs =>
          cases tag <;> simp [Obj.typeOf] at ht
          subst ht
          refine posn (fun v => decide (v.kind = .enum ∧ v.variantName = some vn))
            (.enumT (.derived _) vn) ?_ fs (posOK fun p hp => hp)
          intro fs v hv
          rw [partG _ rfl rfl v hv]
          simp only [patchFields, decide_eq_true_eq]
          rfl
        case enumU tag vn =>
          cases tag <;> simp [Obj.typeOf] at ht
          subst ht
          have hid : patchSeq E (.enumU (.derived _) vn) ps = .enumU (.derived _) vn :=
            patchSeq_id fun p hp => by rw [partG _ rfl rfl p hp]; simp [patchFields]
          rw [hid, hid]
    -- dynamic enums
    have dyn : x.kind = .enum → x.typeOf = some .enumValue →
        patchSeq E (patchSeq E x ps) ps = patchSeq E x ps := by
      intro hk ht
      have hxT := OK.typed hO hx ht
      have shape : ∀ {x}, HasTy E .enumValue x → x.kind = .enum ∧ x.typeOf = some .enumValue := by
        intro x hx
        cases hx <;> (rename_i ho; subst ho; simp [Value.toObj, Obj.kind, Obj.typeOf])
      rcases dynEnum_classify hO hok with ⟨m, hm⟩ | hc
      · have same : ∀ y, HasTy E .enumValue y → y.variantName = m →
            patchSeq E (patchSeq E y ps) ps = patchSeq E y ps := by
          intro y hy hyn
          have hyok : y.OK E := ⟨_, hy⟩
          have dv : y.DynVis := hy.dynVis
          obtain ⟨hyk, hyt⟩ := shape hy
          cases y <;> simp [Obj.kind] at hyk
          case enumS tag vn fs =>
            cases tag <;> simp [Obj.typeOf] at hyt
            refine named (fun v => decide (v.kind = .enum)) (.enumS (.dyn _) vn) ?_ fs ?_
            · intro fs v hv
              rw [patch_enum_dyn E rfl rfl]
              simp only [decide_eq_true_eq]
              split
              · next h => rw [if_pos]; · rfl
                          · rw [hm v hv h, ← hyn]; rfl
              · rfl
            · intro p hp
              exact .inr (hyok.parts (List.mem_map_of_mem
                (List.mem_filter.mpr ⟨hp, by simp [dv p hp]⟩)))
          case enumT tag vn fs =>
            cases tag <;> simp [Obj.typeOf] at hyt
            refine posn (fun v => decide (v.kind = .enum)) (.enumT .dyn vn) ?_ fs ?_
            · intro fs v hv
              rw [patch_enum_dyn E rfl rfl]
              simp only [decide_eq_true_eq]
              split
              · next h => rw [if_pos]; · rfl
                          · rw [hm v hv h, ← hyn]; rfl
              · rfl
            · intro p hp
              cases hh : p.isHidden with
              | true => exact .inl rfl
              | false => exact .inr (hyok.parts (List.mem_filter.mpr ⟨hp, by simp [hh]⟩))
          case enumU tag vn =>
            cases tag <;> simp [Obj.typeOf] at hyt
            have hid : patchSeq E (.enumU .dyn vn) ps = .enumU .dyn vn :=
              patchSeq_id fun p hp => by
                rw [patch_enum_dyn E rfl rfl]
                split
                · next h =>
                  rw [if_pos (by rw [hm p hp h, ← hyn])]
                  rfl
                · rfl
            rw [hid, hid]
        by_cases hxn : x.variantName = m
        · exact same x hxT hxn
        · -- the first enum patch replaces `x`
          have key : ∀ qs : List Obj, (∀ q ∈ qs, q ∈ ps) → patchSeq E x qs = x ∨
              ∃ y, HasTy E .enumValue y ∧ y.variantName = m ∧ patchSeq E x qs = patchSeq E y qs := by
            intro qs
            induction qs with
            | nil => intro _; exact .inl rfl
            | cons q qs ihq =>
              intro hsub
              by_cases hq : q.kind = .enum
              · right
                obtain ⟨y, hy⟩ := fromReflect_enumValue_some E hq
                have hqok := hok q (hsub q (by simp))
                have hqm := hm q (hsub q (by simp)) hq
                refine ⟨y, fromReflect_sound hO _ q hqok hy, ?_, ?_⟩
                · rw [(fromReflect_enumValue_name hy).1, hqm]
                · rw [patchSeq_cons, patchSeq_cons, enumValue_absorbs hD hO hK hqok (hgf q (hsub q (by simp))) hy,
                    patch_enum_dyn E hk ht, if_pos hq, if_neg, hy]
                  · rfl
                  · rw [hqm]; exact fun h => hxn h.symm
              · have hskip : ∀ z, HasTy E .enumValue z → patch E z q = z := by
                  intro z hz
                  rw [patch_enum_dyn E (shape hz).1 (shape hz).2, if_neg hq]
                rcases ihq (fun r hr => hsub r (by simp [hr])) with h | ⟨y, h1, h2, h3⟩
                · left; rw [patchSeq_cons, hskip x hxT, h]
                · right
                  refine ⟨y, h1, h2, ?_⟩
                  rw [patchSeq_cons, patchSeq_cons, hskip x hxT, hskip y h1, h3]
          rcases key ps (fun _ h => h) with h | ⟨y, h1, h2, h3⟩
          · rw [h, h]
          · rw [h3]; exact same y h1 h2
      · exact idem_of_const (fun p hp y hy => patch_hasTy hO p (hok p hp) hy) hc hxT
    cases x with
    | hidden d => exact absurd hx.not_hidden (by simp [Obj.isHidden])
    | scalar s =>
      refine idem_of_const_or_id (C := fun y => ∃ s', y = .scalar s' ∧ s'.kind = s.kind) ?_ ?_
        ⟨s, rfl, rfl⟩
      · rintro p hp _ ⟨s', rfl, hs'⟩
        rw [patch_scalar]
        split
        · next h =>
          obtain ⟨s'', rfl, hk⟩ := isTy_scalar_inv h
          exact ⟨s'', rfl, by rw [hk, hs']⟩
        · exact ⟨s', rfl, hs'⟩
      · intro p hp
        by_cases h : p.isTy (.scalar s.kind)
        · left
          refine ⟨p, ?_⟩
          rintro _ ⟨s', rfl, hs'⟩
          rw [patch_scalar, hs', if_pos h]
        · right
          rintro _ ⟨s', rfl, hs'⟩
          rw [patch_scalar, hs', if_neg h]
    | nonzero k n =>
      refine idem_of_const_or_id (C := HasTy E (.nonzero k)) ?_ ?_ (OK.typed hO hx rfl)
      · exact fun p hp y hy => patch_hasTy hO p (hok p hp) hy
      · intro p hp
        cases hf : fromReflect E (.nonzero k) p with
        | some c => left; refine ⟨c, ?_⟩; intro y hy; cases hy; rw [patch_nonzero, hf]; rfl
        | none => right; intro y hy; cases hy; rw [patch_nonzero, hf]; rfl
    | struct tag fs =>
      refine named (fun v => decide (v.kind = .struct)) (.struct tag) ?_ fs
        (fieldsOK fun p hp => List.mem_map_of_mem hp)
      intro fs v _
      rw [patch_struct]; simp only [decide_eq_true_eq]
    | tupleStruct tag fs =>
      refine posn (fun v => decide (v.kind = .tupleStruct)) (.tupleStruct tag) ?_ fs
        (posOK fun p hp => hp)
      intro fs v _
      rw [patch_tupleStruct]; simp only [decide_eq_true_eq]
    | tuple tag fs =>
      refine posn (fun v => decide (v.kind = .tuple)) (.tuple tag) ?_ fs
        (posOK fun p hp => hp)
      intro fs v _
      rw [patch_tuple]; simp only [decide_eq_true_eq]
    | vec t fs =>
      refine posn (fun v => decide (v.kind = .list)) (.vec t) ?_ fs
        (fun p hp => .inr (hx.parts hp))
      intro fs v _
      rw [patch_vec]; simp only [decide_eq_true_eq]
    | array t fs =>
      refine posn (fun v => decide (v.kind = .array)) (.array t) ?_ fs
        (fun p hp => .inr (hx.parts hp))
      intro fs v _
      rw [patch_array]; simp only [decide_eq_true_eq]
    | enumS tag vn fs => cases tag with
      | derived n => exact derived rfl rfl
      | dyn ns => exact dyn rfl rfl
    | enumT tag vn fs => cases tag with
      | derived n => exact derived rfl rfl
      | dyn => exact dyn rfl rfl
    | enumU tag vn => cases tag with
      | derived n => exact derived rfl rfl
      | dyn => exact dyn rfl rfl
    | map kt vt kvs =>
      cases OK.typed hO hx rfl with
      | map _ _ _ hs hk hv =>
        rw [patchMap_seq hO ps hok kvs hs hk, patchMap_seq hO ps hok]
        · simp only [List.map_map]
          congr 1
          apply List.map_congr_left
          intro p hp
          simp only [Function.comp]
          rw [ih _ (subM_tot E kt p.1 hne) (subM_ok hok) (subM_gf hgf) p.2 (.inr ⟨_, hv p hp⟩)]
        · exact sorted_of_keys_eq (by simp [Function.comp_def]) hs
        · intro p hp
          obtain ⟨q, hq, rfl⟩ := List.mem_map.mp hp
          exact hk q hq

/-- Patching twice with the same value is the same as patching once. -/
theorem patch_idem {E : Env} (hD : DeclsOK E) (hO : OrdLaws E) (hK : KeysShown E)
    {x v : Obj} (hx : x.OK E) (hv : v.OK E) (hg : v.EnumsGapFree) :
    patch E (patch E x v) v = patch E x v :=
  patchSeq_idem hD hO hK _ [v] (Nat.le_refl _) (by simpa using hv) (by simpa using hg) x (.inr hx)

theorem Obj.NoGaps.enumsGapFree {v : Obj} (h : v.NoGaps) : v.EnumsGapFree := by
  induction h with
  | mk o h0 hp ih => exact .mk _ (fun _ x hx => hp x hx) ih

end Mirror
