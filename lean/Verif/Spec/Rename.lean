import Verif.Model.TypePath
import Verif.Spec.TypeInfo
import Verif.Model.Visit

/-!
# Specification: the same type graph with other ids
-/

namespace Mirror

/-- The same variant with other ids. -/
def VariantNode.rename (r : Ty → Ty) : VariantNode → VariantNode
  | .struct n names fields => .struct n names (fields.map fun p => (p.1, r p.2))
  | .tuple n fields => .tuple n (fields.map r)
  | .unit n => .unit n

/-- The same node with other ids. -/
def TypeNode.rename (r : Ty → Ty) : TypeNode → TypeNode
  | .struct names fields => .struct names (fields.map fun p => (p.1, r p.2))
  | .tupleStruct fields => .tupleStruct (fields.map r)
  | .tuple fields => .tuple (fields.map r)
  | .enum vs => .enum (vs.map (·.rename r))
  | .list t => .list (r t)
  | .array t n => .array (r t) n
  | .map k v => .map (r k) (r v)
  | .scalar k => .scalar k
  | .opaque => .opaque

/-- The same answer of `type_at` with other ids. -/
def TypeAt.rename (r : Ty → Ty) : TypeAt → TypeAt
  | .ty id n => .ty (r id) (n.rename r)
  | .variant v => .variant (v.rename r)

/-- The same leaf, the type of an opaque value under another id. -/
def Leaf.rename (r : Ty → Ty) : Leaf → Leaf
  | .scalar s => .scalar s
  | .opaque o t => .opaque o (r t)

end Mirror
