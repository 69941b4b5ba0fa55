import Verif.Lemmas.PatchFullValue
import Verif.Lemmas.Edit
import Verif.Lemmas.PatchEq
import Verif.Lemmas.Access
import Verif.Spec.Address

set_option linter.unusedSimpArgs false

/-!
# Patches addressed to one part
-/

namespace Mirror

theorem unit_neutral {E : Env} (hO : OrdLaws E) {x : Obj} (hx : x.OK E) : patch E x unitValue.toObj = x := by
  by_cases h : x.kind = .tuple
  · cases x <;> simp [Obj.kind] at h
    rw [patch_tuple]
    split
    · congr 1
      refine List.ext_getElem? fun i => ?_
      simp only [patchPos, unitValue, Value.toObj, Obj.fieldAt, List.map_nil, visAt, List.getElem?_nil, patchO,
        List.getElem?_mapIdx, Option.map_id']
    · rfl
  · refine patch_other_kind hO hx ⟨.value, .value unitValue _ (.tuple _ (by simp)) rfl⟩ ?_
    simp only [unitValue, Value.toObj, Obj.kind]
    exact Ne.symm h

theorem Step.wrap_kind (s : Step) (v : Value) : (s.wrap v).toObj.kind = s.kind := by
  cases s <;> simp [Step.wrap, Step.kind, Value.toObj, Obj.kind, svSetField, svNew, svFinish]

theorem Step.wrap_wf {s : Step} (hs : s.WF) {v : Value} (hv : v.WF) : (s.wrap v).WF := by
  have hl : ∀ i : Nat, ∀ w ∈ List.replicate i unitValue ++ [v], w.WF := by
    intro i w hw
    rcases List.mem_append.mp hw with h | h
    · rw [(List.mem_replicate.mp h).2]
      exact .tuple _ (by simp)
    · simp at h; rw [h]; exact hv
  cases s with
  | field n =>
    exact .struct _ _ (by simp [svSet, bmInsert]) (by simp [svSet, bmInsert, BMSorted])
      (by simpa [svSet, bmInsert] using hv)
  | tupleStruct i => exact .tupleStruct _ (hl i)
  | tuple i => exact .tuple _ (hl i)
  | element i => exact .list _ (hl i)
  | entry k => exact .map _ (by simp [BMSorted]) (by simpa [Step.WF] using hs) (by simpa using hv)

theorem wrapAll_wf {ss : List Step} (hs : ∀ s ∈ ss, s.WF) {v : Value} (hv : v.WF) : (wrapAll ss v).WF := by
  induction ss with
  | nil => exact hv
  | cons s ss ih =>
    exact Step.wrap_wf (hs s (by simp)) (ih fun s h => hs s (by simp [h]))

theorem named_none {g : Obj → Obj} (hg : ∀ a, a.isHidden = true → g a = a) {n : String}
    {fs : List (String × Obj)}
    (hi : nameIdx n ((fs.map (·.1)).zip ((fs.map (·.2)).map (·.isHidden))) = none) :
    (fs.map fun p => (p.1, if p.1 = n then g p.2 else p.2)) = fs := by
  induction fs with
  | nil => rfl
  | cons p r ih =>
    obtain ⟨m, a⟩ := p
    simp only [List.map_cons, List.zip_cons_cons, nameIdx] at hi
    split at hi
    · cases hi
    · next hc =>
      rw [List.map_cons, ih (Option.map_eq_none_iff.mp hi)]
      congr 2
      split
      · next hm =>
        refine hg a ?_
        simp only [not_and] at hc
        simpa using hc hm
      · rfl

theorem named_some {g : Obj → Obj} {n : String} {fs : List (String × Obj)} {i : Nat} {y : Obj}
    (hi : nameIdx n ((fs.map (·.1)).zip ((fs.map (·.2)).map (·.isHidden))) = some i)
    (hn : (fs.map (·.1)).Nodup) (hy : (fs.map (·.2))[i]? = some y) :
    (fs.map fun p => (p.1, if p.1 = n then g p.2 else p.2)) =
      (fs.map (·.1)).zip ((fs.map (·.2)).set i (g y)) := by
  induction fs generalizing i with
  | nil => cases hi
  | cons p r ih =>
    obtain ⟨m, a⟩ := p
    simp only [List.map_cons, List.zip_cons_cons, nameIdx] at hi
    simp only [List.map_cons, List.nodup_cons] at hn
    split at hi
    · next hc =>
      cases hi
      obtain ⟨rfl, _⟩ := hc
      simp only [List.map_cons, List.getElem?_cons_zero, Option.some.injEq] at hy
      subst hy
      simp only [List.map_cons, if_true, List.set_cons_zero, List.zip_cons_cons]
      congr 1
      rw [zip_fst_snd]
      conv => rhs; rw [← List.map_id r]
      refine List.map_congr_left fun q hq => ?_
      have : q.1 ≠ m := fun e => hn.1 (e ▸ List.mem_map_of_mem hq)
      simp [this]
    · obtain ⟨j, hj, rfl⟩ := Option.map_eq_some_iff.mp hi
      simp only [List.map_cons, List.getElem?_cons_succ] at hy
      simp only [List.map_cons, List.set_cons_succ, List.zip_cons_cons]
      rw [ih hj hn.2 hy]
      have hm : m ≠ n := by
        rintro rfl
        obtain ⟨b, hb⟩ := nameIdx_at hj
        exact hn.1 (List.of_mem_zip (List.mem_of_getElem? hb)).1
      simp [hm]

theorem modify_none {cmp : Obj → Obj → Ordering} {k : Obj} {f : Obj → Obj} {l : List (Obj × Obj)}
    (h : cmpIdx cmp k (l.map (·.1)) = none) : bmModify cmp k f l = l := by
  induction l with
  | nil => rfl
  | cons p r ih =>
    obtain ⟨a, b⟩ := p
    simp only [List.map_cons, cmpIdx] at h
    split at h
    · cases h
    · next hc =>
      rw [bmModify, if_neg hc, ih (Option.map_eq_none_iff.mp h)]

theorem modify_some {cmp : Obj → Obj → Ordering} {k y : Obj} {f : Obj → Obj} {l : List (Obj × Obj)} {i : Nat}
    (h : cmpIdx cmp k (l.map (·.1)) = some i) (hy : (l.map (·.2))[i]? = some y) :
    bmModify cmp k f l = (l.map (·.1)).zip ((l.map (·.2)).set i (f y)) := by
  induction l generalizing i with
  | nil => cases h
  | cons p r ih =>
    obtain ⟨a, b⟩ := p
    simp only [List.map_cons, cmpIdx] at h
    split at h
    · next hc =>
      cases h
      simp only [List.map_cons, List.getElem?_cons_zero, Option.some.injEq] at hy
      subst hy
      rw [bmModify, if_pos hc]
      simp [zip_fst_snd]
    · next hc =>
      obtain ⟨j, hj, rfl⟩ := Option.map_eq_some_iff.mp h
      simp only [List.map_cons, List.getElem?_cons_succ] at hy
      rw [bmModify, if_neg hc, ih hj hy]
      simp

/-- The positions of a wrapper. -/
theorem wrapper_at (i j : Nat) (v : Value) :
    ((List.replicate i unitValue ++ [v]).map Value.toObj)[j]? =
      if j < i then some unitValue.toObj else if j = i then some v.toObj else none := by
  rw [List.map_append, List.map_replicate]
  by_cases h : j < i
  · rw [if_pos h, List.getElem?_append_left (by simpa using h)]
    simp [List.getElem?_replicate, h]
  · rw [if_neg h, List.getElem?_append_right (by simpa using h)]
    by_cases h' : j = i
    · simp [h']
    · have : 0 < j - i := by omega
      rw [if_neg h', List.getElem?_eq_none (by simp; omega)]

theorem wrapper_vis (i j : Nat) (v : Value) :
    visAt ((List.replicate i unitValue ++ [v]).map Value.toObj) j =
      if j < i then some unitValue.toObj else if j = i then some v.toObj else none := by
  unfold visAt
  rw [wrapper_at]
  by_cases h : j < i
  · simp [h, Value.toObj_not_hidden]
  · by_cases h' : j = i <;> simp [h, h', Value.toObj_not_hidden]

/-- Positional patching with a wrapper. -/
theorem pos_wrapper {E : Env} (hO : OrdLaws E) {xs : List Obj} {v : Value} {i : Nat} {w : Obj}
    (hx : ∀ y ∈ xs, y.isHidden = true ∨ y.OK E)
    (hw : ∀ j, w.fieldAt j = if j < i then some unitValue.toObj else if j = i then some v.toObj else none) :
    patchPos E w xs = match xs[i]? with
      | none => xs
      | some y => xs.set i (patchO E y (some v.toObj)) := by
  have neutral : ∀ (j : Nat) y, xs[j]? = some y → patchO E y (some unitValue.toObj) = y := by
    intro j y hy
    rcases hx y (List.mem_of_getElem? hy) with h | h
    · exact patchO_of_hidden E h _
    · exact unit_neutral hO h
  refine List.ext_getElem? fun j => ?_
  simp only [patchPos, List.getElem?_mapIdx, hw]
  cases hj : xs[j]? with
  | none =>
    have : xs.length ≤ j := List.getElem?_eq_none_iff.mp hj
    have hr : ∀ l : List Obj, l.length = xs.length → l[j]? = none := fun l hl =>
      List.getElem?_eq_none (by rw [hl]; exact this)
    cases hi : xs[i]? with
    | none => simp [hj]
    | some y => rw [Option.map_none]; exact (hr _ (by simp)).symm
  | some y =>
    simp only [Option.map_some]
    by_cases h1 : j < i
    · rw [if_pos h1, neutral j y hj]
      split
      · rw [hj]
      · rw [List.getElem?_set_ne (by omega), hj]
    · by_cases h2 : j = i
      · subst h2
        simp only [hj]
        simp [(List.getElem?_eq_some_iff.mp hj).1]
      · rw [if_neg h1, if_neg h2]
        simp only [patchO]
        split
        · rw [hj]
        · rw [List.getElem?_set_ne (Ne.symm h2), hj]

theorem wrap_field (n : String) (v : Value) (m : String) :
    ((Step.field n).wrap v).toObj.field m = if m = n then some v.toObj else none := by
  have h : ((Step.field n).wrap v).toObj = .struct (.dyn [n]) [(n, v.toObj)] := by
    simp [Step.wrap, svSetField, svNew, svSet, svFinish, bmInsert, Value.toObj]
  rw [h]
  by_cases hm : m = n
  · simp [Obj.field, visFields, Value.toObj_not_hidden, lookup, hm]
  · simp [Obj.field, visFields, Value.toObj_not_hidden, lookup, hm, Ne.symm hm]

theorem wrap_patch_named (E : Env) (n : String) (v : Value) (fs : List (String × Obj)) :
    patchNamed E ((Step.field n).wrap v).toObj fs =
      fs.map fun p => (p.1, if p.1 = n then patchO E p.2 (some v.toObj) else p.2) := by
  unfold patchNamed
  refine List.map_congr_left fun p _ => ?_
  rw [wrap_field]
  split <;> rfl

theorem set_get_self {α} {l : List α} {i : Nat} {a : α} (h : l[i]? = some a) : l.set i a = l := by
  refine List.ext_getElem? fun j => ?_
  by_cases hj : j = i
  · subst hj
    rw [List.getElem?_set_self (List.getElem?_eq_some_iff.mp h).1, h]
  · rw [List.getElem?_set_ne (Ne.symm hj)]

theorem kids_ok {E : Env} {x : Obj} (hx : x.OK E) : ∀ y ∈ x.kids, y.isHidden = true ∨ y.OK E := by
  intro y hy
  cases hh : y.isHidden with
  | true => exact .inl rfl
  | false =>
    obtain ⟨T, hT⟩ := hx
    refine .inr (hT.parts_ok y ?_)
    cases x <;> simp only [Obj.kids, Obj.parts, visFields, visPos, List.mem_map, List.mem_filter,
      List.not_mem_nil, List.mem_append] at hy ⊢
    case struct => obtain ⟨p, hp, rfl⟩ := hy; exact ⟨p, ⟨hp, by simp [hh]⟩, rfl⟩
    case enumS => obtain ⟨p, hp, rfl⟩ := hy; exact ⟨p, ⟨hp, by simp [hh]⟩, rfl⟩
    case map => exact .inr hy
    all_goals first | exact hy | exact ⟨hy, by simp [hh]⟩

/-- One step. -/
theorem step_patch {E : Env} (hD : DeclsOK E) (hO : OrdLaws E) {x : Obj} (hx : x.OK E) {s : Step} (hs : s.WF)
    {v : Value} (hk : x.kind = s.kind) :
    (keyIdx E x s.key = none → patch E x (s.wrap v).toObj = x) ∧
    ∀ i y, keyIdx E x s.key = some i → x.kids[i]? = some y →
      patch E x (s.wrap v).toObj = x.withKids (x.kids.set i (patchO E y (some v.toObj))) := by
  have hvk := s.wrap_kind v
  have parts : ∀ y ∈ x.kids, y.isHidden = true ∨ y.OK E := kids_ok hx
  cases s with
  | field n =>
    cases x <;> simp [Obj.kind, Step.kind] at hk
    next tag fs =>
    simp only [Step.kind] at hvk
    obtain ⟨T, hT⟩ := hx
    rw [patch_struct, if_pos hvk, wrap_patch_named]
    simp only [Step.key, keyIdx, Obj.kids, Obj.withKids]
    exact ⟨fun h => by rw [named_none (fun a ha => patchO_of_hidden E ha _) h],
      fun i y hi hy => by rw [named_some (g := fun a => patchO E a (some v.toObj)) hi ((hT.names hD).1 _ _ rfl) hy]⟩
  | tupleStruct i =>
    cases x <;> simp [Obj.kind, Step.kind] at hk
    next tag fs =>
    simp only [Step.kind] at hvk
    rw [patch_tupleStruct, if_pos hvk, pos_wrapper (i := i) (v := v) (xs := fs) (w := ((Step.tupleStruct i).wrap v).toObj) hO parts (fun j => by
      simp only [Step.wrap, Value.toObj, Obj.fieldAt]; exact wrapper_vis i j v)]
    simp only [Step.key, keyIdx, Obj.kids, Obj.withKids, List.getElem?_map]
    cases hf : fs[i]? with
    | none => simp
    | some y =>
      cases hh : y.isHidden with
      | true =>
        simp only [Option.map_some, hh, Option.some.injEq, reduceCtorEq, if_false, false_imp_iff, implies_true,
          and_true, forall_const]
        rw [patchO_of_hidden E hh, set_get_self hf]
      | false =>
        simp only [Option.map_some, hh, if_true, reduceCtorEq, false_imp_iff, true_and, Option.some.injEq]
        rintro j z rfl hz
        rw [hf] at hz; cases hz; rfl
  | tuple i =>
    cases x <;> simp [Obj.kind, Step.kind] at hk
    next tag fs =>
    simp only [Step.kind] at hvk
    rw [patch_tuple, if_pos hvk, pos_wrapper (i := i) (v := v) (xs := fs) (w := ((Step.tuple i).wrap v).toObj) hO parts (fun j => by
      simp only [Step.wrap, Value.toObj, Obj.fieldAt]; exact wrapper_vis i j v)]
    simp only [Step.key, keyIdx, Obj.kids, Obj.withKids, List.getElem?_map]
    cases hf : fs[i]? with
    | none => simp
    | some y =>
      cases hh : y.isHidden with
      | true =>
        simp only [Option.map_some, hh, Option.some.injEq, reduceCtorEq, if_false, false_imp_iff, implies_true,
          and_true, forall_const]
        rw [patchO_of_hidden E hh, set_get_self hf]
      | false =>
        simp only [Option.map_some, hh, if_true, reduceCtorEq, false_imp_iff, true_and, Option.some.injEq]
        rintro j z rfl hz
        rw [hf] at hz; cases hz; rfl
  | element i =>
    cases x <;> simp [Obj.kind, Step.kind] at hk
    next t fs =>
    simp only [Step.kind] at hvk
    rw [patch_vec, if_pos hvk, pos_wrapper (i := i) (v := v) (xs := fs) (w := ((Step.element i).wrap v).toObj) hO parts (fun j => by
      simp only [Step.wrap, Value.toObj, Obj.fieldAt]; exact wrapper_at i j v)]
    have hu : valueToUsize (.scalar (.int .usize (i : Int))) = some i := by
      simp only [valueToUsize, usizeSize]
      simp only [Step.WF] at hs
      congr 1; omega
    simp only [Step.key, keyIdx, Obj.kids, Obj.withKids, List.length_map, hu, Option.bind_some]
    cases hf : fs[i]? with
    | none =>
      have := List.getElem?_eq_none_iff.mp hf
      simp [Nat.not_lt.mpr this]
    | some y =>
      have := (List.getElem?_eq_some_iff.mp hf).1
      simp only [this, if_true, reduceCtorEq, false_imp_iff, true_and, Option.some.injEq]
      rintro j z rfl hz
      rw [hf] at hz; cases hz; rfl
  | entry k =>
    cases x <;> simp [Obj.kind, Step.kind] at hk
    next kt vt kvs =>
    simp only [Step.wrap, Value.toObj, List.map_cons, List.map_nil]
    rw [patch_map]
    simp only [List.foldl_cons, List.foldl_nil, patchEntry, Step.key, keyIdx, Obj.kids, Obj.withKids]
    cases hf : fromReflect E kt k.toObj with
    | none => simp
    | some a =>
      simp only [Option.bind_some]
      exact ⟨fun h => by rw [modify_none h], fun i y hi hy => by rw [modify_some hi hy]; rfl⟩

/-- A whole way. -/
theorem wrapAll_patch {E : Env} (hD : DeclsOK E) (hO : OrdLaws E) {ss : List Step} (hs : ∀ s ∈ ss, s.WF)
    {v : Value} (hv : v.WF) : ∀ {x : Obj}, x.OK E →
    (Leads E x ss → patch E x (wrapAll ss v).toObj = upd E x (ss.map Step.key) fun y => patch E y v.toObj) ∧
    (¬ Leads E x ss → patch E x (wrapAll ss v).toObj = x) := by
  induction ss with
  | nil => intro x hx; exact ⟨fun _ => rfl, fun h => absurd trivial h⟩
  | cons s ss ih =>
    intro x hx
    have hs1 := hs s (by simp)
    have hs2 : ∀ s ∈ ss, s.WF := fun s h => hs s (by simp [h])
    have hsort : s.key.sort ≠ 3 := by cases s <;> simp [Step.key, Key.sort]
    have hw := wrapAll_wf hs2 hv
    by_cases hk : x.kind = s.kind
    · obtain ⟨h1, h2⟩ := step_patch hD hO hx hs1 (v := wrapAll ss v) hk
      cases hi : keyIdx E x s.key with
      | none =>
        have hn : x.atKey E s.key = none := by rw [atKey_kid hsort, hi]; rfl
        refine ⟨?_, fun _ => h1 hi⟩
        rintro ⟨_, y, hy, _⟩
        rw [hn] at hy; cases hy
      | some i =>
        obtain ⟨y, hy1, hy2⟩ := keyIdx_kid hsort hi
        obtain ⟨i1, i2⟩ := ih hs2 (OK_atKey hx hy2)
        have e := h2 i y hi hy1
        refine ⟨?_, ?_⟩
        · rintro ⟨_, z, hz, hl⟩
          rw [hy2] at hz; cases hz
          rw [List.map_cons, upd_step E x hsort, hi]
          simp only [hy1]
          rw [← i1 hl]
          exact e
        · intro hl
          have hl' : ¬ Leads E y ss := fun h => hl ⟨hk, y, hy2, h⟩
          refine e.trans ?_
          simp only [patchO]
          rw [i2 hl', set_get_self hy1, withKids_self hi]
    · refine ⟨fun h => absurd h.1 hk, fun _ => ?_⟩
      refine patch_other_kind hO hx (Step.wrap_wf hs1 hw).ok ?_
      show (s.wrap (wrapAll ss v)).toObj.kind ≠ x.kind
      rw [s.wrap_kind]
      exact Ne.symm hk

/-! ## Patching part by part -/

theorem patchO_shown {E : Env} (hO : OrdLaws E) {y : Obj} {a : Option Obj} (hy : y.isHidden = true ∨ y.OK E)
    (ha : ∀ w, a = some w → w.OK E) : (patchO E y a).isHidden = y.isHidden := by
  rcases hy with hy | hy
  · rw [patchO_of_hidden E hy]
  · cases a with
    | none => rfl
    | some w =>
      obtain ⟨T, hT⟩ := hy
      have h := patch_hasTy hO w (ha w rfl) hT
      simp only [patchO]
      rw [h.not_hidden, hT.not_hidden]

theorem lookup_mapNamed {E : Env} (n : String) {fs : List (String × Obj)} {g : String → Obj → Obj}
    (hg : ∀ p ∈ fs, (g p.1 p.2).isHidden = p.2.isHidden) :
    lookup n (visFields (fs.map fun p => (p.1, g p.1 p.2))) = (lookup n (visFields fs)).map (g n) := by
  induction fs with
  | nil => rfl
  | cons p r ih =>
    have ih' := ih fun q hq => hg q (by simp [hq])
    obtain ⟨m, a⟩ := p
    have hh := hg (m, a) (by simp)
    simp only [visFields, List.map_cons, List.filter_cons, hh] at ih' ⊢
    cases ha : a.isHidden with
    | true => simpa [ha] using ih'
    | false =>
      simp only [Bool.not_false, if_true, lookup]
      by_cases hm : m = n
      · subst hm; simp
      · simp only [hm, if_false]; exact ih'

theorem visAt_mapIdx {E : Env} {fs : List Obj} {g : Nat → Obj → Obj} (i : Nat)
    (hg : ∀ j, ∀ y ∈ fs, (g j y).isHidden = y.isHidden) :
    visAt (fs.mapIdx g) i = (visAt fs i).map (g i) := by
  unfold visAt
  rw [List.getElem?_mapIdx]
  cases h : fs[i]? with
  | none => rfl
  | some y =>
    have := hg i y (List.mem_of_getElem? h)
    simp only [Option.map_some, this]
    cases y.isHidden <;> rfl

theorem leaf_atKey {E : Env} {x z : Obj} {f : Obj → Obj} (h : z.kind = x.kind)
    (hx : x.kind = .scalar ∨ x.kind = .opaque) (k : Key) : z.atKey E k = (x.atKey E k).map f := by
  have h1 : ∀ y : Obj, y.kind = .scalar ∨ y.kind = .opaque → y.atKey E k = none := by
    intro y hy
    rcases hy with hy | hy <;> (cases k <;> simp only [Obj.atKey, hy])
  rw [h1 x hx, h1 z (h ▸ hx)]
  rfl

/-- One step into a patched value. -/
theorem patch_atKey {E : Env} (hO : OrdLaws E) {x v : Obj} (hx : x.OK E) (hv : v.OK E) (hk : v.kind = x.kind)
    (he : x.kind ≠ .enum) (hm : x.kind ≠ .map) (k : Key) :
    (patch E x v).atKey E k = (x.atKey E k).map fun y => patchO E y (v.atKey E k) := by
  have hp := kids_ok hx
  have hf : ∀ n w, v.kind = .struct → v.field n = some w → w.OK E := by
    intro n w h1 h2
    exact OK_atKey (k := .named n) hv (by simp only [Obj.atKey, h1]; exact h2)
  have ha : ∀ i w, v.kind = .tupleStruct ∨ v.kind = .tuple → v.fieldAt i = some w → w.OK E := by
    intro i w h1 h2
    exact OK_atKey (k := .numbered i) hv (by rcases h1 with h1 | h1 <;> (simp only [Obj.atKey, h1]; exact h2))
  cases x with
  | scalar s => exact leaf_atKey (patch_kind hO hx hv) (.inl rfl) k
  | nonzero t n => exact leaf_atKey (patch_kind hO hx hv) (.inl rfl) k
  | hidden d => exact leaf_atKey (patch_kind hO hx hv) (.inr rfl) k
  | enumS => simp [Obj.kind] at he
  | enumT => simp [Obj.kind] at he
  | enumU => simp [Obj.kind] at he
  | map => simp [Obj.kind] at hm
  | struct tag fs =>
    replace hk : v.kind = .struct := hk
    rw [patch_struct, if_pos hk]
    cases k with
    | named n =>
      have h1 : v.atKey E (.named n) = v.field n := by simp only [Obj.atKey, hk]
      rw [h1]
      exact lookup_mapNamed (E := E) (g := fun m a => patchO E a (v.field m)) n fun p hp' =>
        patchO_shown hO (hp p.2 (List.mem_map_of_mem hp')) fun w hw => hf _ w hk hw
    | _ => simp [Obj.atKey, Obj.kind]
  | tupleStruct tag fs =>
    replace hk : v.kind = .tupleStruct := hk
    rw [patch_tupleStruct, if_pos hk]
    cases k with
    | numbered i =>
      have h1 : v.atKey E (.numbered i) = v.fieldAt i := by simp only [Obj.atKey, hk]
      rw [h1]
      exact visAt_mapIdx (E := E) (g := fun j a => patchO E a (v.fieldAt j)) i fun j y hy =>
        patchO_shown hO (hp y hy) fun w hw => ha _ w (.inl hk) hw
    | _ => simp [Obj.atKey, Obj.kind]
  | tuple tag fs =>
    replace hk : v.kind = .tuple := hk
    rw [patch_tuple, if_pos hk]
    cases k with
    | numbered i =>
      have h1 : v.atKey E (.numbered i) = v.fieldAt i := by simp only [Obj.atKey, hk]
      rw [h1]
      exact visAt_mapIdx (E := E) (g := fun j a => patchO E a (v.fieldAt j)) i fun j y hy =>
        patchO_shown hO (hp y hy) fun w hw => ha _ w (.inr hk) hw
    | _ => simp [Obj.atKey, Obj.kind]
  | vec t fs =>
    replace hk : v.kind = .list := hk
    rw [patch_vec, if_pos hk]
    cases k with
    | get a =>
      have h1 : v.atKey E (.get a) = (valueToUsize a).bind v.fieldAt := by
        simp only [Obj.atKey, hk]
        try cases valueToUsize a <;> rfl
      rw [h1]
      simp only [Obj.atKey, Obj.kind, patchPos]
      cases hu : valueToUsize a with
      | none => rfl
      | some i => simp [Obj.fieldAt, List.getElem?_mapIdx]
    | _ => simp [Obj.atKey, Obj.kind]
  | array t fs =>
    replace hk : v.kind = .array := hk
    rw [patch_array, if_pos hk]
    cases k with
    | get a =>
      have h1 : v.atKey E (.get a) = (valueToUsize a).bind v.fieldAt := by
        simp only [Obj.atKey, hk]
        try cases valueToUsize a <;> rfl
      rw [h1]
      simp only [Obj.atKey, Obj.kind, patchPos]
      cases hu : valueToUsize a with
      | none => rfl
      | some i => simp [Obj.fieldAt, List.getElem?_mapIdx]
    | _ => simp [Obj.atKey, Obj.kind]

theorem inStep_ok {E : Env} {x v y w : Obj} {p : KeyPath} (h : InStep E x v p y w) :
    x.OK E → v.OK E → y.OK E ∧ w.OK E := by
  induction h with
  | here x v => intro hx hv; exact ⟨hx, hv⟩
  | step x v k x' v' p y w _ _ _ h1 h2 _ ih => intro hx hv; exact ih (OK_atKey hx h1) (OK_atKey hv h2)

theorem inStep_at {E : Env} {x v y w : Obj} {p : KeyPath} (h : InStep E x v p y w) :
    atPath E x p = some y ∧ atPath E v p = some w := by
  induction h with
  | here x v => exact ⟨rfl, rfl⟩
  | step x v k x' v' p y w _ _ _ h1 h2 _ ih =>
    rw [atPath_cons, atPath_cons, h1, h2]
    exact ih

theorem inStep_patch {E : Env} (hO : OrdLaws E) {x v y w : Obj} {p : KeyPath} (h : InStep E x v p y w) :
    x.OK E → v.OK E → atPath E (patch E x v) p = some (patch E y w) := by
  induction h with
  | here x v => intro _ _; rfl
  | step x v k x' v' p y w hk he hm h1 h2 _ ih =>
    intro hx hv
    rw [atPath_cons, patch_atKey hO hx hv hk he hm, h1, h2]
    exact ih (OK_atKey hx h1) (OK_atKey hv h2)

end Mirror
