import Verif.Model.TypeEq
import Mathlib.Data.List.Forall2

/-!
# Specification: when two type descriptors are equal

A descriptor is taken apart into the values in it (metadata and defaults of opaque types), in order, and
everything else.
-/

namespace Mirror

/-- Something in the place of a value. -/
def blank : Value := .list []

/-- Metadata without the values: the keys. -/
def metaOutline (md : WireMeta) : WireMeta := md.map fun p => (p.1, blank)

def metaValues (md : WireMeta) : List Value := md.map (·.2)

def WireNamed.outline (x : WireNamed) : WireNamed := { x with metadata := metaOutline x.metadata }

def WireUnnamed.outline (x : WireUnnamed) : WireUnnamed := { x with metadata := metaOutline x.metadata }

def namedOutline (fs : List (String × WireNamed)) : List (String × WireNamed) :=
  fs.map fun p => (p.1, p.2.outline)

def namedValues (fs : List (String × WireNamed)) : List Value := fs.flatMap fun p => metaValues p.2.metadata

def unnamedValues (fs : List WireUnnamed) : List Value := fs.flatMap fun f => metaValues f.metadata

def WireVariant.outline : WireVariant → WireVariant
  | .struct v => .struct { v with fields := namedOutline v.fields, metadata := metaOutline v.metadata }
  | .tuple v =>
    .tuple { v with fields := v.fields.map WireUnnamed.outline, metadata := metaOutline v.metadata }
  | .unit v => .unit { v with metadata := metaOutline v.metadata }

def WireVariant.values : WireVariant → List Value
  | .struct v => namedValues v.fields ++ metaValues v.metadata
  | .tuple v => unnamedValues v.fields ++ metaValues v.metadata
  | .unit v => metaValues v.metadata

/-- A node without the values in it. -/
def WireNode.outline : WireNode → WireNode
  | .struct n => .struct { n with fields := namedOutline n.fields, metadata := metaOutline n.metadata }
  | .tupleStruct n => .tupleStruct
      { n with fields := n.fields.map WireUnnamed.outline, metadata := metaOutline n.metadata }
  | .tuple n =>
    .tuple { n with fields := n.fields.map WireUnnamed.outline, metadata := metaOutline n.metadata }
  | .enum n =>
    .enum { n with variants := n.variants.map WireVariant.outline, metadata := metaOutline n.metadata }
  | .opaque n => .opaque
      { n with metadata := metaOutline n.metadata, defaultValue := n.defaultValue.map fun _ => blank }
  | n => n

/-- The values in a node, in order. -/
def WireNode.values : WireNode → List Value
  | .struct n => namedValues n.fields ++ metaValues n.metadata
  | .tupleStruct n => unnamedValues n.fields ++ metaValues n.metadata
  | .tuple n => unnamedValues n.fields ++ metaValues n.metadata
  | .enum n => n.variants.flatMap WireVariant.values ++ metaValues n.metadata
  | .opaque n => metaValues n.metadata ++ n.defaultValue.toList
  | _ => []

def graphOutline (g : List (WireId × Option WireNode)) : List (WireId × Option WireNode) :=
  g.map fun p => (p.1, p.2.map WireNode.outline)

def graphValues (g : List (WireId × Option WireNode)) : List Value :=
  g.flatMap fun p => p.2.toList.flatMap WireNode.values

/-- A descriptor without the values in it. -/
def WireDescriptor.outline (x : WireDescriptor) : WireDescriptor := ⟨x.root, graphOutline x.graph⟩

/-- The values in a descriptor, in order. -/
def WireDescriptor.values (x : WireDescriptor) : List Value := graphValues x.graph

/-- Equal, where values are compared with `==`. -/
def WireDescriptor.Same (x y : WireDescriptor) : Prop :=
  x.outline = y.outline ∧ List.Forall₂ (fun a b => Value.beq a b = true) x.values y.values

/-- Two answers of `default_value` that agree up to `R`: both do not return, both panic, both are `None`, or
both are `Some`, of related values. -/
inductive SameAnswer {α : Type} (R : α → α → Prop) : Option (Ends (Option α)) → Option (Ends (Option α)) → Prop
  | stuck : SameAnswer R none none
  | panic : SameAnswer R (some .panic) (some .panic)
  | none : SameAnswer R (some (.ok none)) (some (.ok none))
  | some (a b : α) : R a b → SameAnswer R (some (.ok (some a))) (some (.ok (some b)))

end Mirror
