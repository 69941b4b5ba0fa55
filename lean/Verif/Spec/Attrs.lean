import Mathlib.Data.List.Forall2
import Verif.Model.Attrs

/-!
# The grammar of `#[reflect(..)]`, and what its options mean

Stated without the parser. `R ts rest x` says that a stream `ts` begins with a spelling of `x` and goes on
with `rest`.
-/

namespace Mirror

/-- A stream is a list of spellings of `xs`, each followed by a comma or not. -/
inductive Listed {α : Type} (R : List Tok → List Tok → α → Prop) : List Tok → List α → Prop
  | nil : Listed R [] []
  | cons {ts rest : List Tok} {x : α} {xs : List α} :
      R ts rest x → Listed R rest xs → Listed R ts (x :: xs)
  | comma {ts rest : List Tok} {x : α} {xs : List α} :
      R ts (.comma :: rest) x → Listed R rest xs → Listed R ts (x :: xs)

/-- The traits one can opt out of. -/
inductive OptTrait
  | debug
  | clone
  | fromReflect
  deriving DecidableEq

/-- How they are spelled. -/
def OptTrait.spelling : OptTrait → String
  | .debug => "Debug"
  | .clone => "Clone"
  | .fromReflect => "FromReflect"

/-- A trait in `opt_out(..)`. -/
def ReadsTrait (ts rest : List Tok) (t : OptTrait) : Prop := ts = .ident t.spelling :: rest

/-- `key = expr` in `meta(..)`. The expression is what `syn` reads as one. -/
def ReadsPair (P : SynParsers) (ts rest : List Tok) (p : String × List Tok) : Prop :=
  P.reserved p.1 = false ∧ ∃ r n, ts = .ident p.1 :: .eq :: r ∧ P.expr r = some n ∧ p.2 = r.take n ∧
    rest = r.drop n

/-- The options on an item. -/
inductive ItemOpt
  | optOut (traits : List OptTrait)
  | «meta» (pairs : List (String × List Tok))
  | crateName (path : List Tok)

/-- The options on a variant or a field. -/
inductive FieldOpt
  | skip
  | «meta» (pairs : List (String × List Tok))
  | «with» (f : String)

/-- How an option on an item is spelled. -/
def ReadsItem (P : SynParsers) (ts rest : List Tok) : ItemOpt → Prop
  | .optOut l => ∃ c, ts = .ident "opt_out" :: .paren c :: rest ∧ Listed ReadsTrait c l
  | .meta ps => ∃ c, ts = .ident "meta" :: .paren c :: rest ∧ Listed (ReadsPair P) c ps
  | .crateName p => ∃ c n, ts = .ident "crate_name" :: .paren c :: rest ∧ P.useTree c = some n ∧
      c.length ≤ n ∧ p = c

/-- How an option on a variant or a field is spelled. -/
def ReadsField (P : SynParsers) (ts rest : List Tok) : FieldOpt → Prop
  | .skip => ts = .ident "skip" :: rest
  | .meta ps => ∃ c, ts = .ident "meta" :: .paren c :: rest ∧ Listed (ReadsPair P) c ps
  | .with f => P.reserved f = false ∧ (ts = .ident "from_reflect_with" :: .paren [.ident f] :: rest ∨
      ts = .ident "from_reflect_with" :: .paren [.ident f, .comma] :: rest)

/-- All pairs given in `meta(..)`, over all options of an item. -/
def ItemOpt.pairs (os : List ItemOpt) : List (String × List Tok) :=
  os.flatMap fun o => match o with
    | .meta ps => ps
    | _ => []

/-- All pairs given in `meta(..)`, over all options of a variant or field. -/
def FieldOpt.pairs (os : List FieldOpt) : List (String × List Tok) :=
  os.flatMap fun o => match o with
    | .meta ps => ps
    | _ => []

/-- All paths given in `crate_name(..)`. -/
def ItemOpt.crates (os : List ItemOpt) : List (List Tok) :=
  os.filterMap fun o => match o with
    | .crateName p => some p
    | _ => none

/-- All functions given in `from_reflect_with(..)`. -/
def FieldOpt.withs (os : List FieldOpt) : List String :=
  os.filterMap fun o => match o with
    | .with f => some f
    | _ => none

/-- The lines of documentation: the strings `s` of the `#[doc = s]`, in order. -/
def DocsOf : List SAttr → List String
  | [] => []
  | ⟨["doc"], .text s⟩ :: r => s :: DocsOf r
  | _ :: r => DocsOf r

/-- What the options `os` and the docs of an item amount to. -/
structure ItemMeaning (os : List ItemOpt) (docs : List String) (a : ItemAttrs) : Prop where
  debug : a.debugOptOut = true ↔ ∃ l, .optOut l ∈ os ∧ .debug ∈ l
  clone : a.cloneOptOut = true ↔ ∃ l, .optOut l ∈ os ∧ .clone ∈ l
  fromReflect : a.fromReflectOptOut = true ↔ ∃ l, .optOut l ∈ os ∧ .fromReflect ∈ l
  crate : a.crateName = (ItemOpt.crates os).getLast?.getD [.ident "mirror_mirror"]
  sorted : BMSorted strCmp a.pairs
  pairs : a.pairs.Perm (ItemOpt.pairs os)
  docs : a.docs = docs

/-- What the options `os` and the docs of a variant or field amount to. -/
structure FieldMeaning (os : List FieldOpt) (docs : List String) (a : InnerAttrs) : Prop where
  skip : a.skip = true ↔ .skip ∈ os
  «with» : a.fromReflectWith = (FieldOpt.withs os).getLast?
  sorted : BMSorted strCmp a.pairs
  pairs : a.pairs.Perm (FieldOpt.pairs os)
  docs : a.docs = docs

/-- The attributes of an item say `os`: there is no `#[reflect]` and no option, or there is one, with a list
of options in which no key occurs twice. -/
def ItemSays (P : SynParsers) (as : List SAttr) (os : List ItemOpt) : Prop :=
  ((∀ a ∈ as, a.path ≠ ["reflect"]) ∧ os = []) ∨
  (∃ l r ts, as = l ++ ⟨["reflect"], .list ts⟩ :: r ∧ (∀ a ∈ l ++ r, a.path ≠ ["reflect"]) ∧
    Listed (ReadsItem P) ts os ∧ ((ItemOpt.pairs os).map (·.1)).Nodup)

/-- The attributes of a variant or field say `os`. -/
def FieldSays (P : SynParsers) (as : List SAttr) (os : List FieldOpt) : Prop :=
  ((∀ a ∈ as, a.path ≠ ["reflect"]) ∧ os = []) ∨
  (∃ l r ts, as = l ++ ⟨["reflect"], .list ts⟩ :: r ∧ (∀ a ∈ l ++ r, a.path ≠ ["reflect"]) ∧
    Listed (ReadsField P) ts os ∧ ((FieldOpt.pairs os).map (·.1)).Nodup)

/-- The initialisers in a literal are separated by commas; one more may follow the last. -/
inductive Separated : List InitTok → Prop
  | nil : Separated []
  | one (i : FieldInit) : Separated [.init i]
  | comma (i : FieldInit) {r : List InitTok} : Separated r → Separated (.init i :: .comma :: r)

/-! ## Writing options down -/

/-- A comma, or none. -/
def optComma (b : Bool) : List Tok := if b then [.comma] else []

/-- Options as one writes them: where a comma may be left out, the flag says whether it is there. -/
inductive ItemText
  | optOut (l : List (OptTrait × Bool))
  | «meta» (ps : List (String × List Tok)) (trailing : Bool)
  | crateName (path : List Tok)

/-- `k = e, k = e, ..` and perhaps a comma. -/
def pairsText (trailing : Bool) : List (String × List Tok) → List Tok
  | [] => []
  | [p] => .ident p.1 :: .eq :: (p.2 ++ optComma trailing)
  | p :: q :: r => .ident p.1 :: .eq :: (p.2 ++ .comma :: pairsText trailing (q :: r))

/-- The tokens of an option. -/
def ItemText.tokens : ItemText → List Tok
  | .optOut l => [.ident "opt_out", .paren (l.flatMap fun p => .ident p.1.spelling :: optComma p.2)]
  | .meta ps tr => [.ident "meta", .paren (pairsText tr ps)]
  | .crateName p => [.ident "crate_name", .paren p]

/-- The option it stands for. -/
def ItemText.opt : ItemText → ItemOpt
  | .optOut l => .optOut (l.map (·.1))
  | .meta ps _ => .meta ps
  | .crateName p => .crateName p

/-- `syn` reads these tokens as one expression, before a comma and at the end of a group. -/
def IsExpr (P : SynParsers) (e : List Tok) : Prop :=
  P.expr e = some e.length ∧ ∀ r, P.expr (e ++ .comma :: r) = some e.length

/-- The parts of an option are what they should be. -/
def ItemText.Good (P : SynParsers) : ItemText → Prop
  | .optOut _ => True
  | .meta ps _ => ∀ p ∈ ps, P.reserved p.1 = false ∧ IsExpr P p.2
  | .crateName p => P.useTree p = some p.length

/-- Options on fields and variants, as one writes them. -/
inductive FieldText
  | skip
  | «meta» (ps : List (String × List Tok)) (trailing : Bool)
  | «with» (f : String) (trailing : Bool)

/-- The tokens of an option. -/
def FieldText.tokens : FieldText → List Tok
  | .skip => [.ident "skip"]
  | .meta ps tr => [.ident "meta", .paren (pairsText tr ps)]
  | .with f tr => [.ident "from_reflect_with", .paren (.ident f :: optComma tr)]

/-- The option it stands for. -/
def FieldText.opt : FieldText → FieldOpt
  | .skip => .skip
  | .meta ps _ => .meta ps
  | .with f _ => .with f

/-- The parts of an option are what they should be. -/
def FieldText.Good (P : SynParsers) : FieldText → Prop
  | .skip => True
  | .meta ps _ => ∀ p ∈ ps, P.reserved p.1 = false ∧ IsExpr P p.2
  | .with f _ => P.reserved f = false

/-! ## Items -/

/-- This is a field of the item, or of one of its variants. -/
def SItem.HasField (it : SItem) (f : SField) : Prop :=
  match it.data with
  | .struct fs => f ∈ fs.list
  | .enum vs => ∃ v ∈ vs, f ∈ v.fields.list
  | .union fs => f ∈ fs

/-- The identifier is written in the attribute, in its path or in the expression after `=`. What is written in
the brackets of `#[a(..)]` is not counted: for the compiler it is a list of tokens. -/
def SAttr.Mentions (a : SAttr) (s : String) : Prop :=
  s ∈ a.path ∨ ∃ l, a.body = .value l ∧ s ∈ l

/-- This field of the item has a name. -/
def SItem.HasNamedField (it : SItem) (f : SField) : Prop :=
  match it.data with
  | .struct (.named fs) => f ∈ fs
  | .enum vs => ∃ v ∈ vs, ∃ fs, v.fields = .named fs ∧ f ∈ fs
  | .union fs => f ∈ fs
  | _ => False

/-- This is a variant of the item. -/
def SItem.HasVariant (it : SItem) (v : SVariant) : Prop :=
  ∃ vs, it.data = .enum vs ∧ v ∈ vs

/-- The places where an identifier can occur in an item. -/
inductive SItem.Mentions (it : SItem) (s : String) : Prop
  | itemAttr (a : SAttr) (ha : a ∈ it.attrs) (h : a.Mentions s)
  | header (h : s ∈ it.idents)
  | itemName (h : it.name = s)
  | fieldAttr (f : SField) (hf : it.HasField f) (a : SAttr) (ha : a ∈ f.attrs) (h : a.Mentions s)
  | fieldType (f : SField) (hf : it.HasField f) (h : s ∈ f.idents)
  | fieldName (f : SField) (hf : it.HasNamedField f) (h : f.name = s)
  | variantAttr (v : SVariant) (hv : it.HasVariant v) (a : SAttr) (ha : a ∈ v.attrs) (h : a.Mentions s)
  | variantName (v : SVariant) (hv : it.HasVariant v) (h : v.name = s)
  | discriminant (v : SVariant) (hv : it.HasVariant v) (h : s ∈ v.idents)

/-- All attributes on fields and variants are in order. -/
def SItem.InnerOK (P : SynParsers) (it : SItem) : Prop :=
  (∀ f, it.HasField f → ∃ os, FieldSays P f.attrs os) ∧
  match it.data with
  | .enum vs => ∀ v ∈ vs, ∃ os, FieldSays P v.attrs os
  | _ => True

/-- The declaration of a field, and what its attributes say about skipping it. -/
def DeclaresField (P : SynParsers) (f : SField) (fd : FieldDef) : Prop :=
  ∃ os, FieldSays P f.attrs os ∧ fd.name = f.name ∧ fd.ty = f.ty ∧ (fd.skip = true ↔ .skip ∈ os)

/-- The declaration of a variant. -/
def DeclaresVariant (P : SynParsers) (v : SVariant) (vd : VariantDef) : Prop :=
  match v.fields, vd with
  | .named fs, .struct n fds => n = v.name ∧ List.Forall₂ (DeclaresField P) fs fds
  | .unnamed fs, .tuple n fds => n = v.name ∧ List.Forall₂ (DeclaresField P) fs fds
  | .unit, .unit n => n = v.name
  | _, _ => False

/-- How `from_reflect` gets a field, by what its attributes say: a default value if it is skipped; by the
function given last with `from_reflect_with`; otherwise by the type's own `from_reflect`, after trying a
downcast if the item does not opt out of `Clone`. -/
def InitFor (P : SynParsers) (cloneOptOut : Bool) (f : SField) (i : FieldInit) : Prop :=
  ∃ os, FieldSays P f.attrs os ∧ (.skip ∈ os → i = .default) ∧
    (.skip ∉ os → ∀ g, (FieldOpt.withs os).getLast? = some g → i = .call g) ∧
    (.skip ∉ os → FieldOpt.withs os = [] → i = if cloneOptOut then .convert else .downcastOrConvert)

/-- The initialisers in a literal, in order. -/
def initsOf (l : List InitTok) : List FieldInit :=
  l.filterMap fun t => match t with
    | .init i => some i
    | .comma => none

end Mirror
