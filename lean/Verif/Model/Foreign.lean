import Verif.Model.Reflect

/-!
# The types of the standard library, of glam and of macaw

They are declared with the derive macro's own syntax (`__private_derive_reflect_foreign!`), which expands
to what `#[derive(Reflect)]` expands to (macros lib.rs, derive_reflect/mod.rs). A generic type is one
declaration for each choice of its parameters.
-/

namespace Mirror

/-- `Option<T>` (foreign_impls/mod.rs:22-31). -/
def optionDef (t : Ty) : TyDef := ⟨.enum [.unit "None", .tuple "Some" [⟨"", t, false⟩]], true⟩

/-- `Result<T, E>` (foreign_impls/mod.rs:33-43). -/
def resultDef (t e : Ty) : TyDef :=
  ⟨.enum [.tuple "Ok" [⟨"", t, false⟩], .tuple "Err" [⟨"", e, false⟩]], true⟩

/-- `Range<Idx>` (foreign_impls/mod.rs:45-54). -/
def rangeDef (t : Ty) : TyDef := ⟨.struct [⟨"start", t, false⟩, ⟨"end", t, false⟩], true⟩

/-- `RangeFrom<Idx>` (foreign_impls/mod.rs:56-64). -/
def rangeFromDef (t : Ty) : TyDef := ⟨.struct [⟨"start", t, false⟩], true⟩

/-- `RangeFull` (foreign_impls/mod.rs:66-69): a unit struct. The macro treats it as a struct with no
fields (macros derive_reflect/mod.rs:41-51). -/
def rangeFullDef : TyDef := ⟨.struct [], false⟩

/-- `RangeToInclusive<Idx>` and `RangeTo<Idx>` (foreign_impls/mod.rs:71-89). -/
def rangeToDef (t : Ty) : TyDef := ⟨.struct [⟨"end", t, false⟩], true⟩

/-- `Infallible` (foreign_impls/mod.rs:91-206): an enum without variants. Its `from_reflect` is always
`None` (150-154). -/
def infallibleDef : TyDef := ⟨.enum [], false⟩

/-- `glam::Vec2` (foreign_impls/glam.rs:4-10). -/
def vec2Def : TyDef := ⟨.struct [⟨"x", .scalar .f32, false⟩, ⟨"y", .scalar .f32, false⟩], false⟩

/-- `glam::Vec3` (foreign_impls/glam.rs:12-19). -/
def vec3Def : TyDef :=
  ⟨.struct [⟨"x", .scalar .f32, false⟩, ⟨"y", .scalar .f32, false⟩, ⟨"z", .scalar .f32, false⟩], false⟩

/-- `glam::Mat3` (foreign_impls/glam.rs:27-34); `v` is the name of `Vec3`. -/
def mat3Def (v : String) : TyDef :=
  ⟨.struct [⟨"x_axis", .named v, false⟩, ⟨"y_axis", .named v, false⟩, ⟨"z_axis", .named v, false⟩], false⟩

/-- `macaw::ColorRgba8` (foreign_impls/macaw.rs:4-7). -/
def colorRgba8Def : TyDef := ⟨.tupleStruct [⟨"", .array (.scalar (.int .u8)) 4, false⟩], false⟩

end Mirror
