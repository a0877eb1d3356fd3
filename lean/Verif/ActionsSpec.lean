/-
Independent description of what the validators and linters must report.
-/
import Verif.Actions
import Verif.LinesSpec

namespace Verif.Spec

/-- What has to stand at the other end of a reference. -/
inductive Role where
  | data | operation | resource

/-- A shape of this kind may stand there. Unresolved placeholders are accepted where data is expected only. -/
def Allowed : Role → ShapeKind → Prop
  | .data, .service _ => False
  | .data, .operation _ => False
  | .data, .resource _ => False
  | .data, _ => True
  | .operation, .operation _ => True
  | .operation, _ => False
  | .resource, .resource _ => True
  | .resource, _ => False

/-- The references a shape makes: the place (as messages describe it), what must stand there, and the id. -/
inductive Refers (s : TopLevelShape) : Str → Role → ShapeID → Prop
  | member {m} : HasMemberShape s.body m → Refers s (s.id.display ++ %s" member " ++ m.id) .data m.target
  | serviceOperation {v : Service} {t} : s.body = .service v → t ∈ v.operations → Refers s %s"Service operation" .operation t
  | serviceResource {v : Service} {t} : s.body = .service v → t ∈ v.resources → Refers s %s"Service resource" .resource t
  | input {o : Operation} {t} : s.body = .operation o → o.input = some t → Refers s (s.id.display ++ %s" member input") .data t
  | output {o : Operation} {t} : s.body = .operation o → o.output = some t → Refers s (s.id.display ++ %s" member output") .data t
  | error {o : Operation} {t} : s.body = .operation o → t ∈ o.errors → Refers s (s.id.display ++ %s" member errors") .data t
  | identifier {r : Resource} {n t} : s.body = .resource r → r.identifiers.get n = some t →
      Refers s (s.id.display ++ %s" member " ++ n) .data t
  | create {r : Resource} {t} : s.body = .resource r → r.create = some t → Refers s %s"Resource operation 'create'" .operation t
  | put {r : Resource} {t} : s.body = .resource r → r.put = some t → Refers s %s"Resource operation 'put'" .operation t
  | read {r : Resource} {t} : s.body = .resource r → r.read = some t → Refers s %s"Resource operation 'read'" .operation t
  | update {r : Resource} {t} : s.body = .resource r → r.update = some t → Refers s %s"Resource operation 'update'" .operation t
  | delete {r : Resource} {t} : s.body = .resource r → r.delete = some t → Refers s %s"Resource operation 'delete'" .operation t
  | list {r : Resource} {t} : s.body = .resource r → r.list = some t → Refers s %s"Resource operation 'list'" .operation t
  | operation {r : Resource} {t} : s.body = .resource r → t ∈ r.operations → Refers s %s"Resource operation" .operation t
  | collection {r : Resource} {t} : s.body = .resource r → t ∈ r.collectionOperations →
      Refers s %s"Resource collection operation" .operation t
  | resource {r : Resource} {t} : s.body = .resource r → t ∈ r.resources → Refers s %s"Resource resource" .resource t

/-- The target is in the model but must not stand there. -/
def WrongKind (m : Model) (role : Role) (t : ShapeID) : Prop := ∃ s, m.shape t = some s ∧ ¬ Allowed role s.body

/-- The target is neither in the model nor in the prelude. -/
def Dangling (m : Model) (t : ShapeID) : Prop := m.shape t = none ∧ t.ns ≠ %s"smithy.api"

/-- The end of an error message. -/
def Role.complaint : Role → Str
  | .data => %s" must not refer to a service, operation, resource or member."
  | .operation => %s" must be an operation."
  | .resource => %s" must be a resource."

/-- The issues due for a shape. -/
inductive IssueFor (m : Model) (s : TopLevelShape) : Issue → Prop
  | synonym {t} : s.body = .simple t → s.traits = [] → IssueFor m s
      ⟨%s"CorrectTypeReferences", .info, %s"The simple shape (" ++ s.id.display ++
        %s") is simply a synonym, did you mean to add any constraint traits?", some s.id⟩
  | wrong {place role t} : Refers s place role t → WrongKind m role t → IssueFor m s
      ⟨%s"CorrectTypeReferences", .error, place ++ role.complaint, some s.id⟩
  | dangling {place role t} : Refers s place role t → Dangling m t → IssueFor m s
      ⟨%s"CorrectTypeReferences", .warning, place ++ %s"'s type (" ++ t.display ++
        %s") cannot be resolved to a shape in this model.", some s.id⟩

/-- The references a shape makes, each occurrence listed once (for counting). -/
def references : ShapeKind → List (Role × ShapeID)
  | .simple _ => []
  | .list m => [(.data, m.target)]
  | .set m => [(.data, m.target)]
  | .map k v => [(.data, k.target), (.data, v.target)]
  | .struct ms => ms.map fun e => (.data, e.2.target)
  | .union ms => ms.map fun e => (.data, e.2.target)
  | .service v => v.operations.map (.operation, ·) ++ v.resources.map (.resource, ·)
  | .operation o => (o.input.toList ++ o.output.toList ++ o.errors).map (.data, ·)
  | .resource r => r.identifiers.map (fun e => (.data, e.2)) ++
      (r.create.toList ++ r.put.toList ++ r.read.toList ++ r.update.toList ++ r.delete.toList ++ r.list.toList ++
        r.operations ++ r.collectionOperations).map (.operation, ·) ++ r.resources.map (.resource, ·)
  | .unresolved => []

/-- What the documentation of the runners promises: run the actions in order, collect what each has to report, stop at
the first failure of an action itself, and, with `fail_fast`, stop after the first action that reports an error. -/
inductive Runs (m : Model) (failFast : Bool) : List Action → Except Err (List Issue) → Prop
  | done : Runs m failFast [] (.ok [])
  | failed {a : Action} {rest s e} : a.act m a.state = (s, .error e) → Runs m failFast (a :: rest) (.error e)
  | stop {a : Action} {rest s} : a.act m a.state = (s, .ok ()) → failFast = true → (∃ i ∈ a.issues s, i.level = .error) →
      Runs m failFast (a :: rest) (.ok (a.issues s))
  | next {a : Action} {rest s is} : a.act m a.state = (s, .ok ()) → ¬ (failFast = true ∧ ∃ i ∈ a.issues s, i.level = .error) →
      Runs m failFast rest (.ok is) → Runs m failFast (a :: rest) (.ok (a.issues s ++ is))
  | nextFailed {a : Action} {rest s e} : a.act m a.state = (s, .ok ()) → ¬ (failFast = true ∧ ∃ i ∈ a.issues s, i.level = .error) →
      Runs m failFast rest (.error e) → Runs m failFast (a :: rest) (.error e)

/-- The names the naming linter looks at, with the shape an issue is attached to. -/
inductive Named (m : Model) : Str → Bool → Str → ShapeID → Prop
  | shape {id s} : m.shape id = some s → s.traits.get ⟨%s"smithy.api", %s"trait", none⟩ = none →
      Named m id.name true %s"Defined shape names should conform to UpperCamelCase, i.e. " id
  | traitShape {id s v} : m.shape id = some s → s.traits.get ⟨%s"smithy.api", %s"trait", none⟩ = some v →
      Named m id.name false %s"Trait names should conform to lowerCamelCase, i.e. " id
  | applied {id s t v} : m.shape id = some s → s.traits.get t = some v →
      Named m t.name false %s"Trait names should conform to lowerCamelCase, i.e. " t
  | member {id s} {ms : AMap Str MemberShape} {n mem} : m.shape id = some s → s.body = .struct ms ∨ s.body = .union ms → ms.get n = some mem →
      Named m mem.id false %s"Member names should conform to lowerCamelCase, i.e. " id
  | target {id s} {ms : AMap Str MemberShape} {n mem} : m.shape id = some s → s.body = .struct ms ∨ s.body = .union ms → ms.get n = some mem →
      Named m mem.target.name true %s"References to shape names should conform to UpperCamelCase, i.e. " mem.target
  | memberTrait {id s} {ms : AMap Str MemberShape} {n mem t v} : m.shape id = some s → s.body = .struct ms ∨ s.body = .union ms → ms.get n = some mem →
      mem.traits.get t = some v → Named m t.name false %s"Trait names should conform to lowerCamelCase, i.e. " t

/-- The identifiers that make up an id: the parts of its namespace, its name, its member name. -/
inductive PartOf (id : ShapeID) : Str → Prop
  | ns {p} : p ∈ splitOn '.' id.ns → PartOf id p
  | name : PartOf id id.name
  | member {n} : id.member = some n → PartOf id n

/-- The identifiers the terms linter looks at: in ids of shapes and applied traits, in member names of structures and
unions, and in their targets and traits. -/
inductive MentionsWord (m : Model) : Str → Prop
  | shape {id s p} : m.shape id = some s → PartOf id p → MentionsWord m p
  | applied {id s t v p} : m.shape id = some s → s.traits.get t = some v → PartOf t p → MentionsWord m p
  | member {id s} {ms : AMap Str MemberShape} {n mem} : m.shape id = some s → s.body = .struct ms ∨ s.body = .union ms → ms.get n = some mem →
      MentionsWord m mem.id
  | target {id s} {ms : AMap Str MemberShape} {n mem p} : m.shape id = some s → s.body = .struct ms ∨ s.body = .union ms → ms.get n = some mem →
      PartOf mem.target p → MentionsWord m p
  | memberTrait {id s} {ms : AMap Str MemberShape} {n mem t v p} : m.shape id = some s → s.body = .struct ms ∨ s.body = .union ms →
      ms.get n = some mem → mem.traits.get t = some v → PartOf t p → MentionsWord m p

/-- The message about a term. -/
def termMessage (w : Str) : Str :=
  %s"The term '" ++ w ++ %s"' is considered either insensitive, divisive, or otherwise unwelcome"

/-- The unwelcome terms. -/
def Unwelcome (w : Str) : Prop :=
  w = %s"blacklist" ∨ w = %s"kill" ∨ w = %s"master" ∨ w = %s"slave" ∨ w = %s"whitelist"

end Verif.Spec
