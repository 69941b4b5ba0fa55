import Verif.Model.Into
import Verif.Props.Containers
import Verif.Lemmas.Path
import Verif.Lemmas.Typing
import Verif.Lemmas.Demo

/-!
# C78: conversions into `Value`, collecting, and iterating over key paths
-/

namespace Mirror

/-- The value a source is, seen through `Reflect`. A box is what it holds. -/
def Source.obj : Source → Obj
  | .scalar s => .scalar s
  | .str s => .scalar (.string s)
  | .dynamic v => v.toObj
  | .reflect o => o
  | .vec t xs => .vec t xs
  | .array t xs => .array t xs
  | .map kt vt kvs => .map kt vt kvs
  | .boxed s => s.obj

/-- The dynamic values in a source can be built by safe code. -/
def Source.WF : Source → Prop
  | .dynamic v => v.WF
  | .boxed s => s.WF
  | _ => True

/-- C78: `Value::from(x)` is `x.to_value()`, for everything a `Value` can be made from. -/
theorem C78_from_is_to_value (s : Source) (h : s.WF) : s.into = s.obj.toValue := by
  induction s with
  | dynamic v => exact (Value.toObj_toValue h).symm
  | boxed s ih => exact ih h
  | scalar s => simp only [Source.into, Source.obj, Obj.toValue]
  | str s => simp only [Source.into, Source.obj, Obj.toValue]
  | reflect o => rfl
  | vec t xs => simp only [Source.into, Source.obj, Obj.toValue]
  | array t xs => simp only [Source.into, Source.obj, Obj.toValue]
  | map kt vt kvs => simp only [Source.into, Source.obj, Obj.toValue]

example : (Source.boxed (.dynamic (.tuple [.scalar (.bool true)]))).WF := by
  refine .tuple _ fun v hv => ?_
  simp at hv; subst hv; exact .scalar _

/-- C78: collecting names and values into a `StructValue` gives the record with, under each name, the value of
the last pair of that name, and the names in the order of the pairs. -/
theorem C78_collect_struct (items : List (String × Obj)) (n : String) (i : Nat) :
    (svFromIter items).toObj.field n =
      (lastSet n (items.map fun p => (p.1, p.2.toValue))).map Value.toObj ∧
    (svFromIter items).toObj.nameAt i = (items[i]?).map (·.1) ∧
    (svFromIter items).toObj.fieldsLen = items.length := by
  have h : svFromIter items = buildStruct (items.map fun p => (p.1, p.2.toValue)) := by
    simp only [svFromIter, buildStruct, List.foldl_map]
  rw [h]
  refine ⟨(C23_record _ n i).1, ?_, ?_⟩
  · rw [(C23_record _ n i).2.1, List.getElem?_map, Option.map_map]; rfl
  · rw [(C23_fields_len_partial _).1]; simp

/-- C78: collecting values into a `TupleValue` or `TupleStructValue` gives these values, in order. -/
theorem C78_collect_tuple (items : List Obj) :
    tvFromIter items = .tuple (items.map Obj.toValue) ∧
    tsvFromIter items = .tupleStruct (items.map Obj.toValue) := by
  have h := C24_tuple_builders (items.map Obj.toValue)
  simp only [List.foldl_map] at h
  exact h

/-- C78: the functions that make a path make the path of the one key that the functions that make a key make, and
extending the empty path by keys, or collecting them, gives these keys. -/
theorem C78_make_paths (n v : String) (i : Nat) (s : Source) (ks : List Key) :
    pathField n = KeyPath.ofKey (Key.namedField n) ∧ pathFieldAt i = KeyPath.ofKey (Key.numberedField i) ∧
    pathGet s = KeyPath.ofKey (Key.getOf s) ∧ pathVariant v = KeyPath.ofKey (Key.variantOf v) ∧
    KeyPath.fromIter ks = ks.foldl KeyPath.push [] ∧ KeyPath.fromIter ks = KeyPath.extend [] ks := by
  refine ⟨rfl, rfl, rfl, rfl, ?_, rfl⟩
  have : ∀ p : KeyPath, ks.foldl KeyPath.push p = p ++ ks := by
    induction ks with
    | nil => simp
    | cons k ks ih => intro p; simp [ih, KeyPath.push]
  rw [this]; rfl

/-- C78: a key made from `x` with `Key::get` or `get` looks up what a key holding `x.to_value()` looks up. -/
theorem C78_get_key (E : Env) (s : Source) (h : s.WF) (o : Obj) :
    o.atKey E (Key.getOf s) = o.atKey E (.get s.obj.toValue) ∧
    atPath E o (pathGet s) = o.atKey E (.get s.obj.toValue) := by
  have h' := C78_from_is_to_value s h
  refine ⟨by rw [Key.getOf, h'], ?_⟩
  simp only [pathGet, KeyPath.getKey, KeyPath.push, List.nil_append, atPath_cons, h']
  cases o.atKey E (.get s.obj.toValue) <;> rfl

/-- Calls of an iterator: from the front (`true`) or from the back. The keys obtained from the front, those from
the back, and the iterator afterwards. -/
def PathIter.runAll (it : PathIter) : List Bool → List (Option Key) × List (Option Key) × PathIter
  | [] => ([], [], it)
  | true :: bs =>
    let r := it.next
    let rs := PathIter.runAll r.2 bs
    (r.1 :: rs.1, rs.2.1, rs.2.2)
  | false :: bs =>
    let r := it.nextBack
    let rs := PathIter.runAll r.2 bs
    (rs.1, r.1 :: rs.2.1, rs.2.2)

/-- The keys not yielded yet. -/
def PathIter.left (it : PathIter) : List Key := (it.path.take it.back).drop it.front

theorem PathIter.next_left (it : PathIter) (hb : it.back ≤ it.path.length) :
    it.next.1 = it.left.head? ∧ it.next.2.left = it.left.tail ∧ it.next.2.back ≤ it.next.2.path.length := by
  obtain ⟨p, f, b⟩ := it
  simp only at hb
  simp only [PathIter.next, PathIter.left]
  split
  · next h =>
    refine ⟨?_, ?_, hb⟩
    · rw [List.head?_drop, List.getElem?_take_of_lt h]
    · simp only [List.tail_drop]
  · next h =>
    have : (p.take b).drop f = [] := by
      rw [List.drop_eq_nil_iff, List.length_take]; omega
    simp [this, hb]

theorem PathIter.nextBack_left (it : PathIter) (hb : it.back ≤ it.path.length) :
    it.nextBack.1 = it.left.getLast? ∧ it.nextBack.2.left = it.left.dropLast ∧
      it.nextBack.2.back ≤ it.nextBack.2.path.length := by
  obtain ⟨p, f, b⟩ := it
  simp only at hb
  simp only [PathIter.nextBack, PathIter.left]
  split
  · next h =>
    have hl : ((p.take b).drop f).length = b - f := by simp; omega
    refine ⟨?_, ?_, by simp only; omega⟩
    · rw [List.getLast?_eq_getElem?, hl, List.getElem?_drop, List.getElem?_take_of_lt (by omega)]
      have e : f + (b - f - 1) = b - 1 := by omega
      rw [e]
    · simp only
      rw [List.dropLast_eq_take, hl, List.take_drop, List.take_take]
      have e' : min (f + (b - f - 1)) b = b - 1 := by omega
      rw [e']
  · next h =>
    have : (p.take b).drop f = [] := by
      rw [List.drop_eq_nil_iff, List.length_take]; omega
    simp [this, hb]

/-- C78: however `next` and `next_back` are mixed, the keys from the front, the keys that are left, and the keys from
the back in reverse make up the path; `len` is the number of keys left, and `None` is only returned when there are
none. -/
theorem C78_iterate_path (p : KeyPath) (bs : List Bool) :
    (((KeyPath.iter p).runAll bs).1.filterMap id) ++ ((KeyPath.iter p).runAll bs).2.2.left ++
      (((KeyPath.iter p).runAll bs).2.1.filterMap id).reverse = p ∧
    ((KeyPath.iter p).runAll bs).2.2.len = ((KeyPath.iter p).runAll bs).2.2.left.length ∧
    (none ∈ ((KeyPath.iter p).runAll bs).1 ++ ((KeyPath.iter p).runAll bs).2.1 →
      ((KeyPath.iter p).runAll bs).2.2.len = 0) := by
  have key : ∀ it : PathIter, it.back ≤ it.path.length →
      ((it.runAll bs).1.filterMap id) ++ (it.runAll bs).2.2.left ++ ((it.runAll bs).2.1.filterMap id).reverse =
        it.left ∧
      (it.runAll bs).2.2.back ≤ (it.runAll bs).2.2.path.length ∧
      (none ∈ (it.runAll bs).1 ++ (it.runAll bs).2.1 → (it.runAll bs).2.2.left = []) ∧
      (it.left = [] → (it.runAll bs).2.2.left = []) := by
    induction bs with
    | nil => intro it h; simp [PathIter.runAll, h]
    | cons b bs ih =>
      intro it h
      cases b with
      | true =>
        obtain ⟨h1, h2, h3⟩ := it.next_left h
        obtain ⟨i1, i2, i3, i4⟩ := ih it.next.2 h3
        simp only [PathIter.runAll]
        rw [h2] at i1 i4
        cases hl : it.left with
        | nil =>
          rw [hl] at h1 i1 i4
          simp only [List.head?_nil] at h1
          refine ⟨?_, i2, fun _ => i4 rfl, fun _ => i4 rfl⟩
          rw [h1, List.filterMap_cons_none rfl]
          exact i1
        | cons k r =>
          rw [hl] at h1 i1 i4
          simp only [List.head?_cons, List.tail_cons] at h1 i1
          refine ⟨?_, i2, ?_, fun h => by cases h⟩
          · rw [h1, List.filterMap_cons_some (f := id) (b := k) rfl, List.cons_append, List.cons_append, i1]
          · intro hn
            rw [h1] at hn
            simp only [List.cons_append, List.mem_cons, reduceCtorEq, false_or] at hn
            exact i3 hn
      | false =>
        obtain ⟨h1, h2, h3⟩ := it.nextBack_left h
        obtain ⟨i1, i2, i3, i4⟩ := ih it.nextBack.2 h3
        simp only [PathIter.runAll]
        rw [h2] at i1 i4
        cases hl : it.left.getLast? with
        | none =>
          have hn := List.getLast?_eq_none_iff.mp hl
          rw [hn] at i1 i4
          rw [hl] at h1
          refine ⟨?_, i2, fun _ => i4 rfl, fun _ => i4 rfl⟩
          rw [h1, List.filterMap_cons_none rfl, hn]
          exact i1
        | some k =>
          rw [hl] at h1
          refine ⟨?_, i2, ?_, fun h => ?_⟩
          · rw [h1, List.filterMap_cons_some (f := id) (b := k) rfl, List.reverse_cons, ← List.append_assoc, i1,
              List.dropLast_append_getLast? _ hl]
          · intro hn
            rw [h1] at hn
            simp only [List.mem_append, List.mem_cons, reduceCtorEq, false_or] at hn
            exact i3 (List.mem_append.mpr hn)
          · rw [h] at hl; cases hl
  obtain ⟨h1, h2, h3, _⟩ := key (KeyPath.iter p) (Nat.le_refl _)
  have hlen : ((KeyPath.iter p).runAll bs).2.2.len = ((KeyPath.iter p).runAll bs).2.2.left.length := by
    simp only [PathIter.len, PathIter.left, List.length_drop, List.length_take]
    omega
  refine ⟨?_, hlen, fun hn => by rw [hlen, h3 hn]; rfl⟩
  rw [h1]
  simp [PathIter.left, KeyPath.iter]

/-- Mixed calls on a path of three keys. -/
example : ((KeyPath.iter [.named "a", .numbered 1, .variant "B"]).runAll [false, true, false, true]).1 =
      [some (.named "a"), none] ∧
    ((KeyPath.iter [.named "a", .numbered 1, .variant "B"]).runAll [false, true, false, true]).2.1 =
      [some (.variant "B"), some (.numbered 1)] := ⟨rfl, rfl⟩

end Mirror
