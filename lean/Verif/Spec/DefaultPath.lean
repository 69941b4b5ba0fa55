import Verif.Model.TypePath

/-!
# Which keys lead into a default value
-/

namespace Mirror

/-- Whether the default value of a type has something under a key that the type has something under. A list
and a map are empty by default, an array has its elements, an enum is in its first variant. A struct has the
fields of its field list. -/
def HoldsDefault : TypeAt → Key → Prop
  | .ty _ (.list _), _ => False
  | .ty _ (.map _ _), _ => False
  | .ty _ (.array _ n), .get v => ∃ i, valueToUsize v = some i ∧ i < n
  | .ty _ (.enum vs), .variant n => vs.head?.map VariantNode.name = some n
  | .ty _ (.struct names _), .named n => n ∈ names
  | .variant (.struct _ names _), .named n => n ∈ names
  | _, _ => True

/-- The second path is the first with variant keys put in. Reading a value, `.field` works on an enum
value directly; asking a type, the variant has to be named first. -/
inductive Spelled : KeyPath → KeyPath → Prop
  | nil : Spelled [] []
  | same {p q : KeyPath} (k : Key) : Spelled p q → Spelled (k :: p) (k :: q)
  | put {p q : KeyPath} (n : String) : Spelled p q → Spelled p (.variant n :: q)

end Mirror
