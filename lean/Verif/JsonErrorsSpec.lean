/-
Small independent specification for C102: what can be wrong with a JSON document that is to be read as a model, and the error that says so.
Each fault is about a place of the document: a value that is missing or of the wrong type, or a text that is not what it has to be.
-/
import Verif.JsonSpec
import Verif.IdentitySpec

namespace Verif.Spec.JsonFaults

/-- An error about the structure of the document, at the place that the reader calls by this name. -/
abbrev Misplaced (place : Str) : Err := .deserialization %s"JSON AST" place none

/-- The text is not the text of an absolute shape id. -/
inductive IdFault (s : Str) : Err → Prop
  | mk : (¬ ∃ id : ShapeID, id.Valid ∧ s = id.display) → IdFault s (.invalidShapeID s)

/-- The text is not an identifier. -/
inductive NameFault (s : Str) : Err → Prop
  | mk : ¬ IsIdentifier s → NameFault s (.invalidShapeID s)

/-- The value (or there is none) is not an object with a text as its `target`. -/
def NoTarget (j : Option Json) : Prop := ∀ x t, j = some x → x.get %s"target" ≠ some (.string t)

/-- What is wrong with a reference to a shape. -/
inductive RefFault (j : Option Json) : Err → Prop
  | missing : NoTarget j → RefFault j (Misplaced %s"JsonReader::target")
  | id {x t e} : j = some x → x.get %s"target" = some (.string t) → IdFault t e → RefFault j e

/-- What is wrong with a reference that may be left out. -/
def OptRefFault (j : Option Json) (e : Err) : Prop := j ≠ none ∧ RefFault j e

/-- What is wrong with a list of references. -/
inductive RefsFault (j : Option Json) : Err → Prop
  | type {x} : j = some x → (∀ l, x ≠ .array l) → RefsFault j (Misplaced %s"JsonReader::target_list")
  | element {l x e} : j = some (.array l) → x ∈ l → RefFault (some x) e → RefsFault j e

/-- What is wrong with the traits (anything but an object is taken for no traits). -/
inductive TraitsFault (j : Option Json) : Err → Prop
  | id {o k x e} : j = some (.object o) → (k, x) ∈ o → IdFault k e → TraitsFault j e
  | member {o x} {id : ShapeID} : j = some (.object o) → (id.display, x) ∈ o → id.Valid → id.member ≠ none →
      TraitsFault j (.shapeIDExpected id)

/-- What is wrong with the member of a list or set, or the key or value of a map. -/
inductive MemberFault (j : Option Json) : Err → Prop
  | target {e} : RefFault j e → MemberFault j e
  | traits {x e} : j = some x → TraitsFault (x.get %s"traits") e → MemberFault j e

/-- What is wrong with the members of a structure or union (anything but an object is taken for no members). -/
inductive MembersFault (j : Option Json) : Err → Prop
  | type {o k x} : j = some (.object o) → (k, x) ∈ o → (∀ p, x ≠ .object p) → MembersFault j (Misplaced %s"JsonReader::members")
  | missing {o k p} : j = some (.object o) → (k, .object p) ∈ o → NoTarget (some (.object p)) →
      MembersFault j (Misplaced %s"JsonReader::members/target")
  | target {o k p t e} : j = some (.object o) → (k, .object p) ∈ o → AMap.get p %s"target" = some (.string t) → IdFault t e → MembersFault j e
  | name {o k x e} : j = some (.object o) → (k, x) ∈ o → NameFault k e → MembersFault j e
  | traits {o k p e} : j = some (.object o) → (k, .object p) ∈ o → TraitsFault (AMap.get p %s"traits") e → MembersFault j e

/-- What is wrong with the renames of a service. -/
inductive RenamesFault (j : Option Json) : Err → Prop
  | type {x} : j = some x → (∀ o, x ≠ .object o) → RenamesFault j (Misplaced %s"JsonReader::renames_hash")
  | id {o k x e} : j = some (.object o) → (k, x) ∈ o → IdFault k e → RenamesFault j e
  | value {o k x} : j = some (.object o) → (k, x) ∈ o → (∀ s, x ≠ .string s) → RenamesFault j (Misplaced %s"JsonReader::string_value")
  | name {o k s e} : j = some (.object o) → (k, .string s) ∈ o → NameFault s e → RenamesFault j e

/-- What is wrong with the identifiers of a resource. -/
inductive IdentifiersFault (place : Str) (j : Option Json) : Err → Prop
  | type {x} : j = some x → (∀ o, x ≠ .object o) → IdentifiersFault place j (Misplaced place)
  | name {o k x e} : j = some (.object o) → (k, x) ∈ o → NameFault k e → IdentifiersFault place j e
  | target {o k x e} : j = some (.object o) → (k, x) ∈ o → RefFault (some x) e → IdentifiersFault place j e

/-- The types of shapes. -/
def types : List Str :=
  [%s"apply", %s"list", %s"set", %s"map", %s"structure", %s"union", %s"service", %s"operation", %s"resource",
   %s"blob", %s"boolean", %s"document", %s"string", %s"byte", %s"short", %s"integer", %s"long", %s"float", %s"double",
   %s"bigInteger", %s"bigDecimal", %s"timestamp"]

/-- The shape is of the type. -/
def Typed (j : Json) (t : Str) : Prop := j.get %s"type" = some (.string t)

/-- What is wrong with the definition of a shape; `place` is what is given as the place of the identifiers of a resource. A panic is counted
as an error that says nothing. -/
inductive KindFault (place : Str) (j : Json) : Err → Prop
  | type : (∀ t, ¬ Typed j t) → KindFault place j (Misplaced %s"JsonReader::shape")
  | unknown {t} : Typed j t → t ∉ types → KindFault place j (Misplaced %s"JsonReader::shape/type")
  | element {t e} : Typed j t → t ∈ [%s"list", %s"set"] → MemberFault (j.get %s"member") e → KindFault place j e
  | entry {p e} : Typed j %s"map" → p ∈ [%s"key", %s"value"] → MemberFault (j.get p) e → KindFault place j e
  | members {t e} : Typed j t → t ∈ [%s"structure", %s"union"] → MembersFault (j.get %s"members") e → KindFault place j e
  | version : Typed j %s"service" → (∀ s, j.get %s"version" ≠ some (.string s)) → KindFault place j (.invalidVersionNumber none)
  | panic : Typed j %s"service" → j.get %s"version" = some (.string []) → KindFault place j .panic
  | closure {p e} : Typed j %s"service" → p ∈ [%s"operations", %s"resources"] → RefsFault (j.get p) e → KindFault place j e
  | rename {e} : Typed j %s"service" → RenamesFault (j.get %s"rename") e → KindFault place j e
  | inOut {p e} : Typed j %s"operation" → p ∈ [%s"input", %s"output"] → OptRefFault (j.get p) e → KindFault place j e
  | errors {e} : Typed j %s"operation" → RefsFault (j.get %s"errors") e → KindFault place j e
  | identifiers {e} : Typed j %s"resource" → IdentifiersFault place (j.get %s"identifiers") e → KindFault place j e
  | lifecycle {p e} : Typed j %s"resource" → p ∈ [%s"create", %s"put", %s"read", %s"update", %s"delete", %s"list"] →
      OptRefFault (j.get p) e → KindFault place j e
  | bound {p e} : Typed j %s"resource" → p ∈ [%s"operations", %s"collectionOperations", %s"resources"] → RefsFault (j.get p) e → KindFault place j e

/-- What is wrong with an entry of `shapes`. -/
inductive ShapeFault (place k : Str) (j : Json) : Err → Prop
  | id {e} : IdFault k e → ShapeFault place k j e
  | kind {e} : KindFault place j e → ShapeFault place k j e
  | traits {e} : TraitsFault (j.get %s"traits") e → ShapeFault place k j e
  | member {id : ShapeID} : id.Valid → id.member ≠ none → k = id.display → ¬ Typed j %s"apply" → ShapeFault place k j (.shapeIDExpected id)

/-- What is wrong with a document. -/
inductive DocFault (place : Str) (j : Json) : Err → Prop
  | type : (∀ o, j ≠ .object o) → DocFault place j (Misplaced %s"JsonReader::model")
  | noVersion {o} : j = .object o → (∀ s, AMap.get o %s"smithy" ≠ some (.string s)) → DocFault place j (Misplaced %s"JsonReader::version")
  | version {o s} : j = .object o → AMap.get o %s"smithy" = some (.string s) → s ∉ [%s"1", %s"1.0"] →
      DocFault place j (.invalidVersionNumber (some s))
  | shape {o p k x e} : j = .object o → AMap.get o %s"shapes" = some (.object p) → (k, x) ∈ p → ShapeFault place k x e → DocFault place j e

end Verif.Spec.JsonFaults
