/-!
# Common containers

Association lists keyed by strings, and `BTreeMap` as a list of pairs kept in key order.
-/

namespace Mirror

theorem sizeOf_snd_lt_of_mem {α β} [SizeOf α] [SizeOf β] {p : α × β} {l : List (α × β)}
    (h : p ∈ l) : sizeOf p.2 < sizeOf l := by
  have := List.sizeOf_lt_of_mem h
  cases p; simp_all; omega

theorem sizeOf_fst_lt_of_mem {α β} [SizeOf α] [SizeOf β] {p : α × β} {l : List (α × β)}
    (h : p ∈ l) : sizeOf p.1 < sizeOf l := by
  have := List.sizeOf_lt_of_mem h
  cases p; simp_all; omega

/-- First entry named `n` in an association list. Models the `if name == "a" { return .. }` chain of
derived structs (mirror-mirror-macros/src/derive_reflect/struct_named.rs:268-288) and
`BTreeMap<String, _>::get` of `StructValue` (mirror-mirror/src/struct_.rs:133-135). -/
def lookup {α} (n : String) : List (String × α) → Option α
  | [] => none
  | (m, x) :: r => if m = n then some x else lookup n r

theorem lookup_mem {α} {n : String} {l : List (String × α)} {x : α} (h : lookup n l = some x) :
    (n, x) ∈ l := by
  induction l with
  | nil => simp [lookup] at h
  | cons p r ih =>
    obtain ⟨m, y⟩ := p
    simp only [lookup] at h
    split at h <;> simp_all

theorem sizeOf_lt_of_lookup {α} [SizeOf α] {n : String} {l : List (String × α)} {x : α}
    (h : lookup n l = some x) : sizeOf x < sizeOf l :=
  sizeOf_snd_lt_of_mem (lookup_mem h)

theorem sizeOf_lt_of_getElem? {α} [SizeOf α] {i : Nat} {l : List α} {x : α}
    (h : l[i]? = some x) : sizeOf x < sizeOf l :=
  List.sizeOf_lt_of_mem (List.mem_of_getElem? h)

section BTreeMap
variable {κ α : Type}

/-- `BTreeMap::insert` (std; used e.g. at mirror-mirror/src/foreign_impls/btree_map.rs:39,138 and
struct_.rs:78): the list is kept in increasing key order; for an equal key the old key stays and the
value is replaced. -/
def bmInsert (cmp : κ → κ → Ordering) (k : κ) (v : α) : List (κ × α) → List (κ × α)
  | [] => [(k, v)]
  | (k', v') :: r =>
    match cmp k k' with
    | .lt => (k, v) :: (k', v') :: r
    | .eq => (k', v) :: r
    | .gt => (k', v') :: bmInsert cmp k v r

/-- `BTreeMap::get` (btree_map.rs:26): the value stored under a key comparing equal. -/
def bmGet (cmp : κ → κ → Ordering) (k : κ) : List (κ × α) → Option α
  | [] => none
  | (k', v') :: r => if cmp k k' = .eq then some v' else bmGet cmp k r

/-- `BTreeMap::remove` (btree_map.rs:45). -/
def bmRemove (cmp : κ → κ → Ordering) (k : κ) : List (κ × α) → List (κ × α)
  | [] => []
  | (k', v') :: r => if cmp k k' = .eq then r else (k', v') :: bmRemove cmp k r

/-- Writing through `BTreeMap::get_mut` (btree_map.rs:30-34): apply `f` to the value stored under a
key comparing equal to `k`, if there is one. -/
def bmModify (cmp : κ → κ → Ordering) (k : κ) (f : α → α) : List (κ × α) → List (κ × α)
  | [] => []
  | (k', v') :: r => if cmp k k' = .eq then (k', f v') :: r else (k', v') :: bmModify cmp k f r

/-- Repeated `insert` into a fresh `BTreeMap` (btree_map.rs:136-139). -/
def bmOfList (cmp : κ → κ → Ordering) (l : List (κ × α)) : List (κ × α) :=
  l.foldl (fun m p => bmInsert cmp p.1 p.2 m) []

/-- Like `bmInsert`, but for an equal key the whole entry is replaced. -/
def bmPut (cmp : κ → κ → Ordering) (k : κ) (v : α) : List (κ × α) → List (κ × α)
  | [] => [(k, v)]
  | (k', v') :: r =>
    match cmp k k' with
    | .lt => (k, v) :: (k', v') :: r
    | .eq => (k, v) :: r
    | .gt => (k', v') :: bmPut cmp k v r

/-- `FromIterator for BTreeMap` (std; `collect` at btree_map.rs:115): the entries are sorted by key, and of
those with equal keys the last one is kept, key and value. -/
def bmCollect (cmp : κ → κ → Ordering) (l : List (κ × α)) : List (κ × α) :=
  l.foldl (fun m p => bmPut cmp p.1 p.2 m) []

/-- The invariant `BTreeMap` maintains: keys strictly increasing. -/
def BMSorted (cmp : κ → κ → Ordering) (l : List (κ × α)) : Prop :=
  l.Pairwise fun p q => cmp p.1 q.1 = .lt

theorem bmGet_mem {cmp : κ → κ → Ordering} {k : κ} {l : List (κ × α)} {v : α}
    (h : bmGet cmp k l = some v) : ∃ k', (k', v) ∈ l ∧ cmp k k' = .eq := by
  induction l with
  | nil => simp [bmGet] at h
  | cons p r ih =>
    obtain ⟨k', v'⟩ := p
    simp only [bmGet] at h
    split at h
    · next heq => exact ⟨k', by simp_all, heq⟩
    · obtain ⟨k'', hm, he⟩ := ih h
      exact ⟨k'', by simp [hm], he⟩

theorem sizeOf_lt_of_bmGet [SizeOf κ] [SizeOf α] {cmp : κ → κ → Ordering} {k : κ}
    {l : List (κ × α)} {v : α} (h : bmGet cmp k l = some v) : sizeOf v < sizeOf l := by
  obtain ⟨k', hm, _⟩ := bmGet_mem h
  exact sizeOf_snd_lt_of_mem hm

end BTreeMap

/-- Extra closing steps for termination proofs about nested values. -/
macro_rules
  | `(tactic| decreasing_trivial) =>
    `(tactic|
      first
        | (have := sizeOf_snd_lt_of_mem (by assumption); simp_all <;> omega)
        | (have := sizeOf_fst_lt_of_mem (by assumption); simp_all <;> omega)
        | (have := sizeOf_lt_of_lookup (by assumption); simp_all <;> omega)
        | (have := sizeOf_lt_of_getElem? (by assumption); simp_all <;> omega)
        | (have := sizeOf_lt_of_bmGet (by assumption); simp_all <;> omega))

end Mirror
