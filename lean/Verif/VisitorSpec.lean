/-
What a walk over a model must do: which calls, in which order, until the first failure.
-/
import Verif.Visitor
import Verif.LinesSpec

namespace Verif.Spec

/-- A call made to a visitor. -/
inductive Call where
  | metadata (key : Str) (value : Value)
  | shape (id : ShapeID) (traits : Traits) (body : ShapeKind)
  | member (parent : ShapeID) (name : Str) (target : ShapeID) (traits : Option Traits)

/-- What the visitor does when it receives a call: the method for the kind of shape, with that shape's parts. -/
def receive {σ ε : Type} (v : ModelVisitor σ ε) (mv : MemberVisitor σ ε) : Call → Step σ ε
  | .metadata k x => v.metadata k x
  | .shape id ts (.simple s) => v.simpleShape id ts s
  | .shape id ts (.list m) => v.list id ts m
  | .shape id ts (.set m) => v.set id ts m
  | .shape id ts (.map k x) => v.map id ts (k, x)
  | .shape id ts (.struct ms) => v.structure_ id ts ms
  | .shape id ts (.union ms) => v.union id ts ms
  | .shape id ts (.service s) => v.service id ts s
  | .shape id ts (.operation o) => v.operation id ts o
  | .shape id ts (.resource r) => v.resource id ts r
  | .shape id ts .unresolved => v.unresolvedId id ts
  | .member p n t ts => mv p n t ts

/-- Calls `cs`, made in order from state `s`, stopping at the first one that fails, end in state `s'` with result `r`. -/
inductive Performs {σ ε : Type} (act : Call → Step σ ε) : List Call → σ → σ → Except ε Unit → Prop
  | done {s} : Performs act [] s s (.ok ())
  | next {c cs s s' s'' r} : act c s = (s', .ok ()) → Performs act cs s' s'' r → Performs act (c :: cs) s s'' r
  | failed {c cs s s' e} : act c s = (s', .error e) → Performs act (c :: cs) s s' (.error e)

/-- The properties of services, operations and resources that name other shapes, under the names they have in the
syntax. -/
inductive HasProperty : ShapeKind → Str → ShapeID → Prop
  | serviceOperation {s : Service} {id} : id ∈ s.operations → HasProperty (.service s) %s"operations" id
  | serviceResource {s : Service} {id} : id ∈ s.resources → HasProperty (.service s) %s"resources" id
  | input {o : Operation} {id} : o.input = some id → HasProperty (.operation o) %s"input" id
  | output {o : Operation} {id} : o.output = some id → HasProperty (.operation o) %s"output" id
  | error {o : Operation} {id} : id ∈ o.errors → HasProperty (.operation o) %s"errors" id
  | create {r : Resource} {id} : r.create = some id → HasProperty (.resource r) %s"create" id
  | put {r : Resource} {id} : r.put = some id → HasProperty (.resource r) %s"put" id
  | read {r : Resource} {id} : r.read = some id → HasProperty (.resource r) %s"read" id
  | update {r : Resource} {id} : r.update = some id → HasProperty (.resource r) %s"update" id
  | delete {r : Resource} {id} : r.delete = some id → HasProperty (.resource r) %s"delete" id
  | list {r : Resource} {id} : r.list = some id → HasProperty (.resource r) %s"list" id
  | resourceOperation {r : Resource} {id} : id ∈ r.operations → HasProperty (.resource r) %s"operations" id
  | collectionOperation {r : Resource} {id} : id ∈ r.collectionOperations → HasProperty (.resource r) %s"collectionOperations" id
  | resourceResource {r : Resource} {id} : id ∈ r.resources → HasProperty (.resource r) %s"resources" id

/-- How many members and properties a shape has. -/
def memberCount : ShapeKind → Nat
  | .list _ | .set _ => 1
  | .map _ _ => 2
  | .struct ms | .union ms => ms.length
  | .service s => s.operations.length + s.resources.length
  | .operation o => o.input.toList.length + o.output.toList.length + o.errors.length
  | .resource r => r.create.toList.length + r.put.toList.length + r.read.toList.length + r.update.toList.length +
      r.delete.toList.length + r.list.toList.length + r.operations.length + r.collectionOperations.length + r.resources.length
  | .simple _ | .unresolved => 0

/-- The values of a property, in order. -/
def propertyValues (k : ShapeKind) (n : Str) : List ShapeID :=
  match k with
  | .service s => if n = %s"operations" then s.operations else if n = %s"resources" then s.resources else []
  | .operation o => if n = %s"input" then o.input.toList else if n = %s"output" then o.output.toList else
      if n = %s"errors" then o.errors else []
  | .resource r => if n = %s"create" then r.create.toList else if n = %s"put" then r.put.toList else
      if n = %s"read" then r.read.toList else if n = %s"update" then r.update.toList else
      if n = %s"delete" then r.delete.toList else if n = %s"list" then r.list.toList else
      if n = %s"operations" then r.operations else if n = %s"collectionOperations" then r.collectionOperations else
      if n = %s"resources" then r.resources else []
  | _ => []

/-- The target of a call for the property `n`. -/
def Call.propertyNamed (n : Str) : Call → Option ShapeID
  | .member _ n' t none => if n' = n then some t else none
  | _ => none

/-- The calls for the members of a shape: one for each member, with its traits, and one for each property, without. -/
structure MemberCalls (s : TopLevelShape) (cs : List Call) : Prop where
  all : ∀ c, c ∈ cs ↔ (∃ m, HasMemberShape s.body m ∧ c = .member s.id m.id m.target (some m.traits)) ∨
    ∃ n t, HasProperty s.body n t ∧ c = .member s.id n t none
  count : cs.length = memberCount s.body
  order : ∀ n, cs.filterMap (Call.propertyNamed n) = propertyValues s.body n

/-- The calls a walk of the model must make: every metadata entry; then every shape, followed directly by its members if
a visitor for members is given. -/
structure WalkCalls (m : Model) (members : Bool) (cs : List Call) : Prop where
  split : ∃ (ms : List (Str × Value)) (blocks : List (TopLevelShape × List Call)),
    cs = ms.map (fun e => .metadata e.1 e.2) ++ blocks.flatMap (fun b => .shape b.1.id b.1.traits b.1.body :: b.2) ∧
    ms.Nodup ∧ (∀ k x, (k, x) ∈ ms ↔ m.metadata.get k = some x) ∧
    (blocks.map (·.1)).Nodup ∧ (∀ s, s ∈ blocks.map (·.1) ↔ ∃ id, m.shape id = some s) ∧
    ∀ b ∈ blocks, if members then MemberCalls b.1 b.2 else b.2 = []

end Verif.Spec
