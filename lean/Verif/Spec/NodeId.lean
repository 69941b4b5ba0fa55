import Verif.Model.NodeId
import Verif.Spec.TypeInfo

/-!
# Specification: descriptors with hashed ids

What it means for a descriptor whose nodes refer to each other by numbers to say the right thing: follow
the numbers from the root, and you find at every step the declaration of the type you expect.
-/

namespace Mirror

variable {ι : Type} [DecidableEq ι]

/-- The same variant, every id replaced by its number. -/
def VariantNode.mapIds (h : Ty → ι) : VariantNode → HVariant ι
  | .struct n names fields => .struct n names (fields.map fun p => (p.1, h p.2))
  | .tuple n fields => .tuple n (fields.map h)
  | .unit n => .unit n

/-- The same node, every id replaced by its number. -/
def TypeNode.mapIds (h : Ty → ι) : TypeNode → HNode ι
  | .struct names fields => .struct names (fields.map fun p => (p.1, h p.2))
  | .tupleStruct fields => .tupleStruct (fields.map h)
  | .tuple fields => .tuple (fields.map h)
  | .enum vs => .enum (vs.map (·.mapIds h))
  | .list t => .list (h t)
  | .array t n => .array (h t) n
  | .map k v => .map (h k) (h v)
  | .scalar k => .scalar k
  | .opaque => .opaque

/-- Looking up the number of any component type of `t` gives the declaration of that type. -/
def HDescriptor.Right (E : Env) (h : Ty → ι) (t : Ty) (d : HDescriptor ι) : Prop :=
  d.root = h t.unbox ∧ ∀ u, t.Reach E u → ∃ n, Describes E u.unbox n ∧
    d.graph.node (h u.unbox) = some (n.mapIds h)

/-- No two component types of `t` (boxes aside) have the same number. -/
def NoCollision (E : Env) (h : Ty → ι) (t : Ty) : Prop :=
  ∀ u v, t.Reach E u → t.Reach E v → h u.unbox = h v.unbox → u.unbox = v.unbox

/-- The ids a variant refers to. -/
def HVariant.ids : HVariant ι → List ι
  | .struct _ _ fields => fields.map (·.2)
  | .tuple _ fields => fields
  | .unit _ => []

/-- The ids a node refers to. -/
def HNode.ids : HNode ι → List ι
  | .struct _ fields => fields.map (·.2)
  | .tupleStruct fields => fields
  | .tuple fields => fields
  | .enum vs => vs.flatMap HVariant.ids
  | .list t => [t]
  | .array t _ => [t]
  | .map k v => [k, v]
  | .scalar _ => []
  | .opaque => []

/-- The ids reachable by navigation from `root` in a graph. -/
inductive HNav (g : HGraph ι) (root : ι) : ι → Prop
  | root : HNav g root root
  | step (i n j) : HNav g root i → g.node i = some n → j ∈ n.ids → HNav g root j

end Mirror
