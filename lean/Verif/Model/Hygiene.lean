import Verif.Model.Mut
import Verif.Model.Containers

/-!
# The code the derive macro generates for struct-like enum variants, with its variables

The macro binds the fields of a struct-like variant under their own names,
`Self::V { a, b, c, }` (macros enum_.rs:148-152,241-245,548-550,596-598,645-647,709-711,885-887), and
all generated identifiers are resolved at the call site (`quote!`). A field that is called like one
of the generated variables therefore captures it. `Obj.field`, `Obj.fieldAt`, `Obj.nameAt`,
`Obj.toValue` and `patch` in the main model describe the uncaptured code. Here the generated
statements are written down with variables and run in an environment where the innermost binding of
a name wins.

A result `none` means that the generated code does not compile: an operand or receiver has the wrong
type. The compiler sees all arms at once; here each arm is judged by the fields it binds.
-/

namespace Mirror

/-- What a generated variable can hold: a `&str` parameter, a `usize` parameter or literal, a
reference to a field, the `bool` of `variant_matches`, the source enum, the builder of `to_value`, or
the `&dyn Reflect` read from the source. -/
inductive GVal
  | str (s : String)
  | num (i : Nat)
  | fld (x : Obj)
  | bool (b : Bool)
  | src (v : Obj)
  | builder
  | got (w : Obj)

/-- Variables in scope, innermost first. -/
abbrev GEnv := List (String × GVal)

/-- The operands that occur in the generated comparisons and returns. -/
inductive GExpr
  | var (x : String)
  | str (s : String)
  | num (i : Nat)

/-- Name resolution: the innermost binding. -/
def GExpr.eval (ρ : GEnv) : GExpr → Option GVal
  | .var x => lookup x ρ
  | .str s => some (.str s)
  | .num i => some (.num i)

/-- `==` between two operands, where Rust has an implementation: `&str == &str`, `usize == usize`,
and `&String == &str`, `&mut String == &str`. `hs d` is the text of the skipped field `d` if its type
compares with `&str` and `none` if it does not. -/
def GVal.eq (hs : Nat → Option String) : GVal → GVal → Option Bool
  | .str a, .str b => some (a == b)
  | .num a, .num b => some (a == b)
  | .fld (.scalar (.string a)), .str b => some (a == b)
  | .fld (.hidden d), .str b => (hs d).map (· == b)
  | _, _ => none

/-- `if lhs == rhs { return Some(ret) }`. -/
structure GStmt where
  lhs : GExpr
  rhs : GExpr
  ret : GExpr

/-- Run such statements and then fall through to `None`. -/
def GStmt.run (hs : Nat → Option String) (ρ : GEnv) : List GStmt → Option (Option GVal)
  | [] => some none
  | s :: r => do
    let a ← s.lhs.eval ρ
    let b ← s.rhs.eval ρ
    if ← a.eq hs b then return some (← s.ret.eval ρ)
    GStmt.run hs ρ r

/-- The bindings made by `Self::V { a, b, c, }`: all fields, skipped ones too. -/
def armEnv (fs : List (String × Obj)) : GEnv := fs.map fun p => (p.1, .fld p.2)

/-- A returned variable has to hold a reference to a field. -/
def retField : Option (Option GVal) → Option (Option Obj)
  | some none => some none
  | some (some (.fld x)) => some (some x)
  | _ => none

/-- The statements of an arm of `Enum::field` and `Enum::field_mut` (macros enum_.rs:536-546,584-594):
one per field that is not skipped. -/
def fieldArm (fs : List (String × Obj)) : List GStmt :=
  (visFields fs).map fun p => ⟨.var "name", .str p.1, .var p.1⟩

/-- Generated `Enum::field(&self, name)` on a struct-like variant (macros enum_.rs:528-574); also the
place that `field_mut` gives (macros enum_.rs:576-622, the same text). -/
def genField (hs : Nat → Option String) (fs : List (String × Obj)) (asked : String) :
    Option (Option Obj) :=
  retField (GStmt.run hs (armEnv fs ++ [("name", .str asked)]) (fieldArm fs))

/-- The fields that are not skipped with their declared index (`enumerate` before `filter`). -/
def genIdx : Nat → List (String × Obj) → List (Nat × String × Obj)
  | _, [] => []
  | i, p :: r => if p.2.isHidden then genIdx (i + 1) r else (i, p) :: genIdx (i + 1) r

/-- Generated `field_at` and `field_at_mut` on a struct-like variant (macros enum_.rs:624-686,688-750). -/
def genFieldAt (hs : Nat → Option String) (fs : List (String × Obj)) (asked : Nat) :
    Option (Option Obj) :=
  retField (GStmt.run hs (armEnv fs ++ [("index", .num asked)])
    ((genIdx 0 fs).map fun q => ⟨.num q.1, .var "index", .var q.2.1⟩))

/-- Generated `name_at` on a struct-like variant (macros enum_.rs:864-923). -/
def genNameAt (hs : Nat → Option String) (fs : List (String × Obj)) (asked : Nat) :
    Option (Option GVal) :=
  GStmt.run hs (armEnv fs ++ [("index", .num asked)])
    ((genIdx 0 fs).map fun q => ⟨.num q.1, .var "index", .str q.2.1⟩)

/-- The statements `value.set_struct_field("f", f.to_value())` of `to_value`
(macros enum_.rs:230-236): the receiver has to be the builder and the other variable a field. -/
def genToValueRun (ρ : GEnv) : List (String × Obj) → Value → Option Value
  | [], acc => some acc
  | p :: r, acc =>
    match lookup "value" ρ, lookup p.1 ρ with
    | some .builder, some (.fld x) =>
      (evSetStructField acc p.1 x.toValue).bind (genToValueRun ρ r)
    | _, _ => none

/-- Generated `to_value` on a struct-like variant (macros enum_.rs:229-247): the builder is bound
inside the arm, in front of the fields. -/
def genToValue (vn : String) (fs : List (String × Obj)) : Option Value :=
  genToValueRun (("value", .builder) :: armEnv fs) (visFields fs) (evNewStruct vn)

/-- One `if let Some(new_value) = enum_.field("f") { f.patch(new_value); }` (macros enum_.rs:137-145)
for the field that stands at this place. `enum_` has to be the source and `f` a field; a field called
`new_value` is captured by the `if let`. The source's `field` is given by `get`. -/
def genPatchStmt (pat : Obj → Obj → Obj) (get : Obj → String → Option Obj) (ρ : GEnv)
    (p : String × Obj) : Option (String × Obj) :=
  match lookup "enum_" ρ with
  | some (.src v) =>
    match get v p.1 with
    | none =>
      match lookup p.1 (("new_value", .got v) :: ρ) with
      | some (.fld _) => some p
      | _ => none
    | some w =>
      match lookup p.1 (("new_value", .got w) :: ρ) with
      | some (.fld x) => some (p.1, pat x w)
      | _ => none
  | _ => none

/-- Generated `patch` on a struct-like variant, in the branch where the value is another enum that
does not convert (macros enum_.rs:136-154,192-196,210-214): `if variant_matches { .. }` needs a
`bool`, and then every field that is not skipped is patched. A field called `enum_` is taken not to
compile: it has no `field` method, except when its type is itself a struct or enum. -/
def genPatch (pat : Obj → Obj → Obj) (get : Obj → String → Option Obj) (fs : List (String × Obj))
    (v : Obj) (matches_ : Bool) : Option (List (String × Obj)) :=
  let ρ : GEnv := armEnv fs ++ [("variant_matches", .bool matches_), ("enum_", .src v)]
  match lookup "variant_matches" ρ with
  | some (.bool b) =>
    (fs.mapM fun (p : String × Obj) =>
      if p.2.isHidden then some p else genPatchStmt pat get ρ p).map fun fs' =>
      if b then fs' else fs
  | _ => none

/-! ## What uses `Enum::field` of a received value -/

/-- `Enum::field` of a derived struct-like variant that compiles. -/
def genGet (hs : Nat → Option String) (fs : List (String × Obj)) (n : String) : Option Obj :=
  (genField hs fs n).getD none

/-- `reflect_eq_enum` on two struct-like variants of the same name and length (reflect_eq.rs:162-181).
`fields` are the fields of the left value, `get` is the right value's `Enum::field`, `eq` is the
recursive call. -/
def eqStructVariant (eq : Obj → Obj → Option Bool) (get : String → Option Obj) :
    List (String × Obj) → Option Bool
  | [] => some true
  | (n, x) :: r =>
    match get n with
    | none => some false
    | some y =>
      match eq x y with
      | some true => eqStructVariant eq get r
      | some false => some false
      | none => none

/-- The struct-like arm of a derived `from_reflect` (macros enum_.rs:362-407): every field that is not
skipped is read with `enum_.field("f")?` and then converted. `conv n x` is the conversion to the type
of the field `n`, `dflt n` the default of a skipped field. -/
def convStructVariant (conv : String → Obj → Option Obj) (dflt : String → Obj)
    (get : String → Option Obj) : List (String × Bool) → Option (List (String × Obj))
  | [] => some []
  | (n, skip) :: r => do
    let y ← if skip then some (dflt n) else (get n).bind (conv n)
    return (n, y) :: (← convStructVariant conv dflt get r)

end Mirror
