import Verif.Model.Foreign
import Verif.Spec.Typing

/-!
# Specification: the values of the library's own types

`n` is the name of the type: `Option<u8>`, `Option<Point>`, ... are different declarations.
-/

namespace Mirror

/-- `None`. -/
def optNone (n : String) : Obj := .enumU (.derived n) "None"

/-- `Some(x)`. -/
def optSome (n : String) (x : Obj) : Obj := .enumT (.derived n) "Some" [x]

/-- `Ok(x)`. -/
def resOk (n : String) (x : Obj) : Obj := .enumT (.derived n) "Ok" [x]

/-- `Err(x)`. -/
def resErr (n : String) (x : Obj) : Obj := .enumT (.derived n) "Err" [x]

/-- `a..b`. -/
def rangeOf (n : String) (a b : Obj) : Obj := .struct (.derived n) [("start", a), ("end", b)]

/-- The declarations of the library, for all parameters. -/
inductive LibDef : TyDef → Prop
  | option (t) : LibDef (optionDef t)
  | result (t e) : LibDef (resultDef t e)
  | range (t) : LibDef (rangeDef t)
  | rangeFrom (t) : LibDef (rangeFromDef t)
  | rangeFull : LibDef rangeFullDef
  | rangeTo (t) : LibDef (rangeToDef t)
  | infallible : LibDef infallibleDef
  | vec2 : LibDef vec2Def
  | vec3 : LibDef vec3Def
  | mat3 (v) : LibDef (mat3Def v)
  | colorRgba8 : LibDef colorRgba8Def

end Mirror
