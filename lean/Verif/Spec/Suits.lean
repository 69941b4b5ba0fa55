import Mathlib.Data.List.Forall2
import Verif.Spec.TypeInfo
import Verif.Spec.Default
import Verif.Spec.Visit

/-!
# Specification: the Values a type descriptor allows

What somebody who has only a type descriptor (and not the type) would say a `Value` must look like to
be a value of the type. Read from the descriptor alone: field names, positions, variants, lengths and
types.
-/

namespace Mirror

/-- The field of a `Value` with a given name. -/
def Value.Named : Value → String → Value → Prop
  | .struct _ fs, n, w => (n, w) ∈ fs
  | .enumS _ _ fs, n, w => (n, w) ∈ fs
  | _, _, _ => False

/-- The field or element of a `Value` at a given position. The positions of named fields follow the
list of names. -/
def Value.Nth : Value → Nat → Value → Prop
  | .struct ns fs, i, w => ∃ n, ns[i]? = some n ∧ (n, w) ∈ fs
  | .enumS _ ns fs, i, w => ∃ n, ns[i]? = some n ∧ (n, w) ∈ fs
  | .enumT _ ws, i, w => ws[i]? = some w
  | .tupleStruct ws, i, w => ws[i]? = some w
  | .tuple ws, i, w => ws[i]? = some w
  | .list ws, i, w => ws[i]? = some w
  | _, _, _ => False

/-- The variant a `Value` is of. -/
def Value.variant : Value → Option String
  | .enumS v _ _ => some v
  | .enumT v _ => some v
  | .enumU v => some v
  | _ => none

/-- Every described name has a value in `v` that suits its described type. -/
def TakesNamed (R : Ty → Value → Prop) (v : Value) (names : List String) (fields : List (String × Ty)) :
    Prop :=
  ∀ p ∈ namedTypes names fields, ∃ j w, p.2 = some j ∧ v.Named p.1 w ∧ R j w

/-- Every described position has a value in `v` that suits its described type. More fields than
described do no harm. -/
def TakesNth (R : Ty → Value → Prop) (v : Value) (fields : List Ty) : Prop :=
  ∀ (i : Nat) j, fields[i]? = some j → ∃ w, v.Nth i w ∧ R j w

/-- `v` is a value of this variant: the variant has its name, and the variant's fields are found by
name in a struct variant and by position in a tuple variant. -/
def VariantNode.Takes (R : Ty → Value → Prop) (v : Value) (n : VariantNode) : Prop :=
  v.variant = some n.name ∧
  match n with
  | .struct _ names fields => TakesNamed R v names fields
  | .tuple _ fields => TakesNth R v fields
  | .unit _ => True

/-- `v` is a value of a type described by this node, if `R` tells what suits the types it refers to
and `op` what suits an opaque type. -/
def TypeNode.Takes (R : Ty → Value → Prop) (op : Value → Prop) (v : Value) : TypeNode → Prop
  | .struct names fields => (∃ ns fs, v = .struct ns fs) ∧ TakesNamed R v names fields
  | .tupleStruct fields => (∃ ws, v = .tupleStruct ws) ∧ TakesNth R v fields
  | .tuple fields => (∃ ws, v = .tuple ws) ∧ TakesNth R v fields
  | .enum vs => ∃ n ∈ vs, n.Takes R v
  | .list j => ∃ ws, v = .list ws ∧ ∀ w ∈ ws, R j w
  | .array j n => ∃ ws, v = .list ws ∧ ws.length = n ∧ ∀ w ∈ ws, R j w
  | .map k j => ∃ kvs, v = .map kvs ∧ ∀ p ∈ kvs, R k p.1 ∧ R j p.2
  | .scalar k => ∃ s, v = .scalar s ∧ s.kind = k
  | .opaque => op v

/-- `v` is a value of the type with id `i` in the graph: the least relation closed under `Takes`. `op`
says what suits the opaque types, about which a descriptor says nothing. -/
def Suits (g : TypeGraph) (op : Ty → Value → Prop) (i : Ty) (v : Value) : Prop :=
  ∀ R : Ty → Value → Prop, (∀ i v n, g.node i = some n → n.Takes R (op i) v → R i v) → R i v

/-- A tuple struct or an enum with a tuple variant that has a skipped field before a reflected one. -/
def Ty.PosGap (E : Env) (t : Ty) : Prop :=
  ∃ n c, t = .named n ∧
    ((∃ fds, E.decl n = some ⟨.tupleStruct fds, c⟩ ∧ SkipGap fds) ∨
      ∃ vn fds vds, E.decl n = some ⟨.enum vds, c⟩ ∧ VariantDef.tuple vn fds ∈ vds ∧ SkipGap fds)

/-- The Values an opaque type takes. -/
def Ty.OpaqueTakes : Ty → Value → Prop
  | .nonzero k, v => ∃ n, n ≠ 0 ∧ v = .scalar (.int k n)
  | .value, _ => True
  | .structValue, v => ∃ ns fs, v = .struct ns fs
  | .tupleStructValue, v => ∃ ws, v = .tupleStruct ws
  | .tupleValue, v => ∃ ws, v = .tuple ws
  | .enumValue, v => v.variant ≠ none
  | _, _ => False

/-- `fs'` holds, under exactly the described names, what is kept of the values `v` has there. -/
structure RetainsNamed (R : Ty → Value → Value → Prop) (v : Value) (names : List String)
    (fields : List (String × Ty)) (fs' : List (String × Value)) : Prop where
  sorted : BMSorted strCmp fs'
  keys : ∀ n, n ∈ names ↔ n ∈ fs'.map (·.1)
  kept : ∀ p ∈ namedTypes names fields, ∃ j w w', p.2 = some j ∧ v.Named p.1 w ∧ (p.1, w') ∈ fs' ∧ R j w w'

/-- `ws'` holds, at exactly the described positions, what is kept of the values `v` has there. -/
structure RetainsNth (R : Ty → Value → Value → Prop) (v : Value) (fields : List Ty) (ws' : List Value) : Prop where
  length : ws'.length = fields.length
  kept : ∀ (i : Nat) j, fields[i]? = some j → ∃ w w', v.Nth i w ∧ ws'[i]? = some w' ∧ R j w w'

/-- What a variant keeps of `v`: the described fields only, in the variant's own form. -/
def VariantNode.Retains (R : Ty → Value → Value → Prop) (v v' : Value) (n : VariantNode) : Prop :=
  v.variant = some n.name ∧
  match n with
  | .struct vn names fields => ∃ fs', v' = .enumS vn names fs' ∧ RetainsNamed R v names fields fs'
  | .tuple vn fields => ∃ ws', v' = .enumT vn ws' ∧ RetainsNth R v fields ws'
  | .unit vn => v' = .enumU vn

/-- What a type described by this node keeps of `v`: the described fields only, under their names in the
described order; all elements of lists and arrays; all entries of maps, of those whose keys have become
equal the first key with the last value; scalars and opaque values as they are. `R` says what the parts
keep. -/
def TypeNode.Retains (R : Ty → Value → Value → Prop) (v v' : Value) : TypeNode → Prop
  | .struct names fields => ∃ fs', v' = .struct names fs' ∧ RetainsNamed R v names fields fs'
  | .tupleStruct fields => ∃ ws', v' = .tupleStruct ws' ∧ RetainsNth R v fields ws'
  | .tuple fields => ∃ ws', v' = .tuple ws' ∧ RetainsNth R v fields ws'
  | .enum vs => ∃ n ∈ vs, n.Retains R v v'
  | .list j => ∃ ws ws', v = .list ws ∧ v' = .list ws' ∧ List.Forall₂ (R j) ws ws'
  | .array j _ => ∃ ws ws', v = .list ws ∧ v' = .list ws' ∧ List.Forall₂ (R j) ws ws'
  | .map k j => ∃ kvs l, v = .map kvs ∧ v' = .map (bmOfList Value.cmp l) ∧
      List.Forall₂ (fun p q => R k p.1 q.1 ∧ R j p.2 q.2) kvs l
  | .scalar _ => v' = v
  | .opaque => v' = v

/-- `v'` is what the type with id `i` in the graph keeps of `v`: the least relation closed under `Retains`. -/
def Retains (g : TypeGraph) (i : Ty) (v v' : Value) : Prop :=
  ∀ R : Ty → Value → Value → Prop, (∀ i v v' n, g.node i = some n → n.Retains R v v' → R i v v') → R i v v'

/-- The keys of the maps in a type are equal, for their own `Ord`, exactly if their Values are. -/
def KeysAsValues (E : Env) (t : Ty) : Prop :=
  ∀ k w, t.Reach E (.map k w) → ∀ a b, HasTy E k a → HasTy E k b →
    (E.kcmp k a b = .eq ↔ Value.cmp a.toValue b.toValue = .eq)

end Mirror
