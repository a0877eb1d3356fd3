/-
Small independent specification of what can be wrong with a text that the grammar of the Smithy IDL accepts: a fault is at a part of the
text, which the grammar takes for one of its rules.
-/
import Verif.IdlErrors

namespace Verif.Spec.Faults
open Peg

/-- The parts of a part that are taken for a rule, in order. -/
def parts (rule : IdlRule) (p : Pair IdlRule) : List (Pair IdlRule) := p.intoInner.filter fun q => decide (q.asRule = rule)

/-- The names of the members of a statement, in order. -/
def memberNames (p : Pair IdlRule) : List Str :=
  (parts .shapeMembers p).flatMap fun ms => (parts .shapeMemberKvp ms).flatMap fun m => (parts .identifier m).map (·.asStr)

/-- The entries of an object or a section: for each of its parts (of this rule) the key as it is written, and the value. -/
def entries (rule : IdlRule) (o : Pair IdlRule) : List (Str × Pair IdlRule) :=
  (parts rule o).flatMap fun e => (parts .identifier e ++ parts .quotedText e).flatMap fun k => (parts .nodeValue e).map fun v => (k.asStr, v)

/-- The last of the entries with a key. -/
def Last (es : List (Str × Pair IdlRule)) (k : Str) (v : Pair IdlRule) : Prop :=
  ∃ before after, es = before ++ (k, v) :: after ∧ ∀ e ∈ after, e.1 ≠ k

/-- The value is a text: a shape id, or the text between quotes. -/
def IsText (v : Pair IdlRule) (t : Str) : Prop :=
  (∃ x ∈ parts .shapeId v, x.asStr = t) ∨ (∃ x ∈ parts .quotedText v, ∃ y ∈ parts .quotedChars x, y.asStr = t) ∨
    ∃ x ∈ parts .textBlock v, ∃ y ∈ parts .blockQuotedChars x, y.asStr = t

/-- The value is an array of these values. -/
def IsArray (v : Pair IdlRule) (vs : List (Pair IdlRule)) : Prop := ∃ x ∈ parts .nodeArray v, vs = parts .nodeValue x

/-- The value is an object with these entries. -/
def IsObject (v : Pair IdlRule) (es : List (Str × Pair IdlRule)) : Prop := ∃ x ∈ parts .nodeObject v, es = entries .nodeObjectKvp x

/-- The text is a name: an identifier, or an absolute id, maybe with a member. -/
def IsName (t : Str) : Prop := IsIdentifier t ∨ ∃ id : ShapeID, id.Valid ∧ id.display = t

/-- The value is a text that is a name. -/
def Names (v : Pair IdlRule) : Prop := ∃ t, IsText v t ∧ IsName t

/-- The properties of a statement that are arrays of names. -/
def arrays : IdlRule → List Str
  | .serviceStatement => [%s"operations", %s"resources"]
  | .operationStatement => [%s"errors"]
  | .resourceStatement => [%s"operations", %s"collectionOperations", %s"resources"]
  | _ => []

/-- The properties of a statement that are names. -/
def singles : IdlRule → List Str
  | .operationStatement => [%s"input", %s"output"]
  | .resourceStatement => [%s"create", %s"put", %s"read", %s"update", %s"delete", %s"list"]
  | _ => []

/-- The other properties of a statement. -/
def others : IdlRule → List Str
  | .serviceStatement => [%s"version"]
  | .resourceStatement => [%s"identifiers"]
  | _ => []

/-- The error for something unexpected, which names the function that reads the construct. -/
def surprise (place : Str) (context : Option Str) : Err := .deserialization %s"Smithy" (place ++ %s" should have been unreachable") context

/-- The function that reads the statement. -/
def reader : IdlRule → Str
  | .listStatement => %s"parse_list_statement"
  | .setStatement => %s"parse_list_statement"
  | .mapStatement => %s"parse_map_statement"
  | .serviceStatement => %s"parse_service_statement"
  | .operationStatement => %s"parse_operation_statement"
  | .resourceStatement => %s"parse_resource_statement"
  | .aTrait => %s"parse_a_trait"
  | _ => %s"parse_shape_statements"

/-- What is wrong with a property of a statement. -/
inductive PropertyFault (rule : IdlRule) (k : Str) (v : Pair IdlRule) : Err → Prop
  | unknown : k ∉ arrays rule ++ singles rule ++ others rule → PropertyFault rule k v (surprise (reader rule) (some k))
  | array : k ∈ arrays rule → (∀ vs, ¬ IsArray v vs) → PropertyFault rule k v (surprise (reader rule) none)
  | element {vs x} : k ∈ arrays rule → IsArray v vs → x ∈ vs → ¬ Names x → PropertyFault rule k v .panic
  | single : k ∈ singles rule → ¬ Names v → PropertyFault rule k v .panic
  | identifiers : rule = .resourceStatement → k = %s"identifiers" → (∀ es, ¬ IsObject v es) → PropertyFault rule k v (surprise (reader rule) none)
  | identifier {es i x} : rule = .resourceStatement → k = %s"identifiers" → IsObject v es → Last es i x → ¬ (IsIdentifier i ∧ Names x) →
      PropertyFault rule k v .panic

/-- What is wrong with a part of a text, and the error for it. -/
inductive PartFault (flt : Str → Option F64) (p : Pair IdlRule) : Err → Prop
  /-- A number is not a floating point number, or not a 64 bit integer. -/
  | number : p.asRule = .number → NumberFault flt p.asStr → PartFault flt p (.other %s"number format error")
  /-- The version of the control section is not known. -/
  | version {v t} : p.asRule = .controlSection → Last (entries .controlStatement p) %s"version" v → IsText v t → t ∉ [%s"1", %s"1.0"] →
      PartFault flt p (.invalidVersionNumber (some t))
  /-- A list or set does not have exactly one member, with the name `member`. -/
  | collection : p.asRule = .listStatement ∨ p.asRule = .setStatement → (∀ n, memberNames p = [n] → ¬ SameName n %s"member") → PartFault flt p (surprise (reader p.asRule) none)
  /-- A map has a member that is not `key` or `value`. -/
  | mapMember {n} : p.asRule = .mapStatement → n ∈ memberNames p → ¬ SameName n %s"key" → ¬ SameName n %s"value" → PartFault flt p (surprise (reader p.asRule) none)
  /-- A map does not have a member `key`, or a member `value`. -/
  | mapMissing {w} : p.asRule = .mapStatement → w ∈ [%s"key", %s"value"] → (∀ n ∈ memberNames p, ¬ SameName n w) → PartFault flt p (surprise (reader p.asRule) none)
  /-- A service does not have a version that is a text. -/
  | service {o} : p.asRule = .serviceStatement → o ∈ parts .nodeObject p → (∀ v, Last (entries .nodeObjectKvp o) %s"version" v → ∀ t, ¬ IsText v t) →
      PartFault flt p .panic
  /-- A property of a service, an operation or a resource is wrong. -/
  | property {o k v e} : p.asRule ∈ [.serviceStatement, .operationStatement, .resourceStatement] → o ∈ parts .nodeObject p →
      Last (entries .nodeObjectKvp o) k v → PropertyFault p.asRule k v e → PartFault flt p e
  /-- Apply statements are not expected. -/
  | apply : p.asRule = .applyStatement → PartFault flt p (surprise (reader p.asRule) none)
  /-- A trait has both a value and members. -/
  | trait {v m} : p.asRule = .aTrait → v ∈ parts .nodeValue p → m ∈ parts .traitStructureKvp p → PartFault flt p (surprise (reader p.asRule) none)
  /-- The name of a trait, or of the target of a member, is not a name: it is relative but with a member. -/
  | name {x} : p.asRule = .aTrait ∨ p.asRule = .shapeMemberKvp → x ∈ parts .shapeId p → ¬ IsName x.asStr → PartFault flt p .panic

end Verif.Spec.Faults
