import Verif.Model.TypePath
import Verif.Model.Default
import Verif.Model.Names

/-!
# Descriptors of parts

`into_type_descriptor` turns a type found by navigating a descriptor into a descriptor of its own.
-/

namespace Mirror

/-- `Type::new(id, graph)` followed by `Type::into_type_descriptor` (type_info/mod.rs:195-275, 333-362; the
same on the views at 705-710, 760-765, 815-820, 879-884, 1256-1261, 1295-1300, 1334-1339): the whole graph
with another root, except that a scalar gets the descriptor of the scalar type. `none` is the panic of
`TypeGraph::get`. -/
def intoDescriptor (E : Env) (g : TypeGraph) (id : Ty) : Option TypeDescriptor :=
  match g.node id with
  | none => none
  | some (.scalar k) => describe E 1 (.scalar k)
  | some _ => some ⟨id, g⟩

end Mirror
