/-
Small independent specification of writing a model in the Smithy IDL and reading it back: which models have a text, and
what of a model is in the text.
-/
import Verif.SelectorSpec
import Verif.BuilderSpec
import Verif.Lines

namespace Verif.Spec

/-- Characters that stand for themselves between double quotes. -/
def PlainChar (c : Char) : Prop := 0x20 ≤ c.toNat ∧ c.toNat ≤ 0x10FFF ∧ c ≠ '"' ∧ c ≠ '\\'

/-- Texts of such characters, for which the debug format adds nothing but the quotes. -/
def Plain (f : Fmt) (s : Str) : Prop := (∀ c ∈ s, PlainChar c) ∧ f.debug s = '"' :: s ++ ['"']

/-- Values that the IDL can express: without null, with identifiers as keys and plain texts; floats have a fraction and
are read back as the same float. -/
inductive WritableValue (f : Fmt) (flt : Str → Option F64) : Value → Prop
  | array {vs} : (∀ v ∈ vs, WritableValue f flt v) → WritableValue f flt (.array vs)
  | object {es : AMap Str Value} : AMap.Wf es → (∀ e ∈ es, SmithyIdent e.1) → (∀ e ∈ es, WritableValue f flt e.2) →
      WritableValue f flt (.object es)
  | integer {n} : i64 n → WritableValue f flt (.number (.integer n))
  | float {x} : FractionText (f.float x) → flt (f.float x) = some x → WritableValue f flt (.number (.float x))
  | boolean {b} : WritableValue f flt (.boolean b)
  | string {s} : Plain f s → WritableValue f flt (.string s)

/-- An absolute id in the syntax of the IDL. -/
structure SmithyId (id : ShapeID) : Prop where
  ns : SmithyNamespace id.ns
  name : SmithyIdent id.name
  member : id.member = none

/-- A placeholder of the model with this name, up to case. -/
def NamedPlaceholder (m : Model) (n : Str) (id : ShapeID) : Prop := ∃ s, m.shape id = some s ∧ s.body = .unresolved ∧ SameName id.name n

/-- In a file for the namespace `ns` of the model, the bare name of `id` stands for `id`: it is the only placeholder with
that name, or no placeholder has that name, and it is defined in the namespace, or not, and it is in the prelude. -/
inductive ShortName (m : Model) (ns : Str) (isTrait : Bool) : ShapeID → Prop
  | imported {id} : NamedPlaceholder m id.name id → (∀ id', NamedPlaceholder m id.name id' → id' = id) → ShortName m ns isTrait id
  | defined {n s} : (∀ id, ¬ NamedPlaceholder m n id) → m.shape ⟨ns, n, none⟩ = some s → s.body ≠ .unresolved → ShortName m ns isTrait ⟨ns, n, none⟩
  | prelude {n} : (∀ id, ¬ NamedPlaceholder m n id) → (∀ s, m.shape ⟨ns, n, none⟩ = some s → s.body = .unresolved) → InPrelude isTrait n →
      ShortName m ns isTrait ⟨%s"smithy.api", n, none⟩

/-- A target that is written by its bare name. -/
def ShortTarget (m : Model) (ns : Str) (id : ShapeID) : Prop := SmithyIdent id.name ∧ ShortName m ns false id

/-- A target that is written by its bare name where values may stand: not one that starts like `true`, `false`, `null`. -/
def BareTarget (m : Model) (ns : Str) (id : ShapeID) : Prop :=
  ShortTarget m ns id ∧ ¬ %s"true" <+: id.name ∧ ¬ %s"false" <+: id.name ∧ ¬ %s"null" <+: id.name

/-- Traits that can be written: those of the namespace and of the prelude by their bare name, the others in full. -/
structure WritableTrait (f : Fmt) (flt : Str → Option F64) (m : Model) (ns : Str) (id : ShapeID) (v : TraitValue) : Prop where
  short : (SameName id.ns ns ∨ SameName id.ns %s"smithy.api") → SmithyIdent id.name ∧ ShortName m ns true id
  full : ¬ (SameName id.ns ns ∨ SameName id.ns %s"smithy.api") → SmithyId id
  value : ∀ x, v = some x → x = .none ∨ WritableValue f flt x

/-- Members of structures and unions that can be written. -/
structure WritableMember (f : Fmt) (flt : Str → Option F64) (m : Model) (ns : Str) (x : MemberShape) : Prop where
  name : SmithyIdent x.id
  target : ShortTarget m ns x.target
  traits : ∀ e ∈ x.traits, WritableTrait f flt m ns e.1 e.2

/-- Bodies that can be written. -/
inductive WritableKind (f : Fmt) (flt : Str → Option F64) (m : Model) (ns : Str) : ShapeKind → Prop
  | simple {s} : WritableKind f flt m ns (.simple s)
  | list {x} : SmithyId x.target → WritableKind f flt m ns (.list x)
  | set {x} : SmithyId x.target → WritableKind f flt m ns (.set x)
  | map {k v} : ShortTarget m ns k.target → ShortTarget m ns v.target → WritableKind f flt m ns (.map k v)
  | struct {ms : AMap Str MemberShape} : (∀ e ∈ ms, WritableMember f flt m ns e.2) → WritableKind f flt m ns (.struct ms)
  | union {ms : AMap Str MemberShape} : (∀ e ∈ ms, WritableMember f flt m ns e.2) → WritableKind f flt m ns (.union ms)
  | service {x} : x.version ≠ [] → Plain f x.version → (∀ id ∈ x.operations, BareTarget m ns id) → (∀ id ∈ x.resources, BareTarget m ns id) →
      WritableKind f flt m ns (.service x)
  | operation {x} : (∀ id, x.input = some id → BareTarget m ns id) → (∀ id, x.output = some id → BareTarget m ns id) →
      (∀ id ∈ x.errors, BareTarget m ns id) → WritableKind f flt m ns (.operation x)
  | resource {x} : (∀ e ∈ x.identifiers, SmithyIdent e.1 ∧ BareTarget m ns e.2) → (∀ id, x.create = some id → BareTarget m ns id) →
      (∀ id, x.put = some id → BareTarget m ns id) → (∀ id, x.read = some id → BareTarget m ns id) →
      (∀ id, x.update = some id → BareTarget m ns id) → (∀ id, x.delete = some id → BareTarget m ns id) →
      (∀ id, x.list = some id → BareTarget m ns id) → (∀ id ∈ x.operations, BareTarget m ns id) →
      (∀ id ∈ x.collectionOperations, BareTarget m ns id) → (∀ id ∈ x.resources, BareTarget m ns id) →
      WritableKind f flt m ns (.resource x)

/-- Shapes that can be written: no placeholder has the same name. -/
structure WritableShape (f : Fmt) (flt : Str → Option F64) (m : Model) (ns : Str) (s : TopLevelShape) : Prop where
  inNs : s.id.ns = ns
  name : SmithyIdent s.id.name
  member : s.id.member = none
  alone : ∀ id, ¬ NamedPlaceholder m s.id.name id
  traits : ∀ e ∈ s.traits, WritableTrait f flt m ns e.1 e.2
  body : WritableKind f flt m ns s.body

/-- Models whose namespace `ns` can be written. -/
structure WritableModel (f : Fmt) (flt : Str → Option F64) (m : Model) (ns : Str) : Prop where
  wf : WfModel m
  nsText : SmithyNamespace ns
  metadata : ∀ e ∈ m.metadata, (∀ c ∈ e.1, PlainChar c) ∧ WritableValue f flt e.2 ∧ ∀ o, e.2 ≠ .object o
  placeholders : ∀ id s, m.shape id = some s → s.body = .unresolved → s.traits = [] ∧ SmithyId id
  shapes : ∀ id s, m.shape id = some s → s.body ≠ .unresolved → SameName id.ns ns → WritableShape f flt m ns s

/-! ### What is in the text -/

/-- A trait without a value, or with null, has the empty structure. -/
def keptValue : TraitValue → Value
  | none => .object []
  | some .none => .object []
  | some v => v

/-- Traits, in the text. -/
def keptTraits (ts : Traits) : Traits := ts.map fun e => (e.1, some (keptValue e.2))

/-- Members of structures and unions, in the text. -/
def keptMember (x : MemberShape) : MemberShape := ⟨x.id, keptTraits x.traits, x.target⟩

/-- Bodies, in the text: the traits of the members of lists, sets and maps and the renames of services are not, and sets
become lists. -/
def keptKind : ShapeKind → ShapeKind
  | .list x => .list ⟨%s"member", [], x.target⟩
  | .set x => .list ⟨%s"member", [], x.target⟩
  | .map k v => .map ⟨%s"key", [], k.target⟩ ⟨%s"value", [], v.target⟩
  | .struct ms => .struct (ms.map fun e => (e.1, keptMember e.2))
  | .union ms => .union (ms.map fun e => (e.1, keptMember e.2))
  | .service x => .service { x with renames := [] }
  | k => k

/-- Shapes, in the text. -/
def kept (s : TopLevelShape) : TopLevelShape := ⟨s.id, keptTraits s.traits, keptKind s.body⟩

/-- What is read from the text of the namespace `ns`: the metadata, with quotes around the keys; the placeholders, and the
shapes of the namespace. -/
structure ReadBack (m : Model) (ns : Str) (m' : Model) : Prop where
  version : m'.version = m.version
  metadata : ∀ k' v, m'.metadata.get k' = some v ↔ ∃ k, k' = '"' :: k ++ ['"'] ∧ m.metadata.get k = some v
  shapes : ∀ id s', m'.shape id = some s' ↔ ∃ s, m.shape id = some s ∧ (s.body = .unresolved ∨ id.ns = ns) ∧ s' = kept s

end Verif.Spec
