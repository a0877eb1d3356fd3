/-
Independent description of the line-oriented form: which lines a model has.
-/
import Verif.Lines
import Verif.ModelSpec

namespace Verif.Spec

/-- Dictionary order by code point: a prefix comes first, else the first difference decides. -/
def DictLe (a b : Str) : Prop :=
  (∃ t, b = a ++ t) ∨ ∃ p c d s t, a = p ++ c :: s ∧ b = p ++ d :: t ∧ c.toNat < d.toNat

/-- The texts a value contributes (rules 10 to 13 of the format): one per leaf. -/
inductive ValueText (f : Fmt) : Value → Str → Prop
  | null : ValueText f .none %s"()"
  | yes : ValueText f (.boolean true) %s"true"
  | no : ValueText f (.boolean false) %s"false"
  | integer {n} : ValueText f (.number (.integer n)) (toString n).toList
  | float {x} : ValueText f (.number (.float x)) (f.float x)
  | string {s} : ValueText f (.string s) (%s"\"" ++ s ++ %s"\"")
  | emptyArray : ValueText f (.array []) %s"[]"
  | emptyObject : ValueText f (.object []) %s"{}"
  | element {vs : List Value} {i : Nat} {v t} : vs[i]? = some v → ValueText f v t →
      ValueText f (.array vs) (%s"[" ++ (toString i).toList ++ %s"]=" ++ t)
  | field {vs : AMap Str Value} {k v t} : vs.get k = some v → ValueText f v t →
      ValueText f (.object vs) (%s"{" ++ k ++ %s"}=" ++ t)

/-- The texts a set of applied traits contributes: the trait's id, followed by its value if it has one. -/
inductive TraitText (f : Fmt) (ts : Traits) : Str → Prop
  | bare {id} : ts.get id = some none → TraitText f ts id.display
  | valued {id v t} : ts.get id = some (some v) → ValueText f v t → TraitText f ts (id.display ++ %s"<=" ++ t)

/-- The members (with traits of their own) of a shape. -/
inductive HasMemberShape : ShapeKind → MemberShape → Prop
  | list {m} : HasMemberShape (.list m) m
  | set {m} : HasMemberShape (.set m) m
  | key {k v} : HasMemberShape (.map k v) k
  | value {k v} : HasMemberShape (.map k v) v
  | struct {ms : AMap Str MemberShape} {n m} : ms.get n = some m → HasMemberShape (.struct ms) m
  | union {ms : AMap Str MemberShape} {n m} : ms.get n = some m → HasMemberShape (.union ms) m

/-- The properties of services, operations and resources that name other shapes, under their singular names. -/
inductive HasTarget : ShapeKind → Str → ShapeID → Prop
  | serviceOperation {s : Service} {id} : id ∈ s.operations → HasTarget (.service s) %s"operation" id
  | serviceResource {s : Service} {id} : id ∈ s.resources → HasTarget (.service s) %s"resource" id
  | input {o : Operation} {id} : o.input = some id → HasTarget (.operation o) %s"input" id
  | output {o : Operation} {id} : o.output = some id → HasTarget (.operation o) %s"output" id
  | error {o : Operation} {id} : id ∈ o.errors → HasTarget (.operation o) %s"error" id
  | create {r : Resource} {id} : r.create = some id → HasTarget (.resource r) %s"create" id
  | put {r : Resource} {id} : r.put = some id → HasTarget (.resource r) %s"put" id
  | read {r : Resource} {id} : r.read = some id → HasTarget (.resource r) %s"read" id
  | update {r : Resource} {id} : r.update = some id → HasTarget (.resource r) %s"update" id
  | delete {r : Resource} {id} : r.delete = some id → HasTarget (.resource r) %s"delete" id
  | list {r : Resource} {id} : r.list = some id → HasTarget (.resource r) %s"list" id
  | resourceOperation {r : Resource} {id} : id ∈ r.operations → HasTarget (.resource r) %s"operation" id
  | collectionOperation {r : Resource} {id} : id ∈ r.collectionOperations → HasTarget (.resource r) %s"collection_operation" id
  | resourceResource {r : Resource} {id} : id ∈ r.resources → HasTarget (.resource r) %s"resource" id

/-- The word for the type of a shape. -/
def typeWord : ShapeKind → Str
  | .simple s => s.display
  | .list _ => %s"list" | .set _ => %s"set" | .map _ _ => %s"map"
  | .struct _ => %s"structure" | .union _ => %s"union"
  | .service _ => %s"service" | .operation _ => %s"operation" | .resource _ => %s"resource"
  | .unresolved => %s"unresolved"

/-- What follows `type::id` on the lines of a shape (rules 1 to 8). -/
inductive ShapeText (f : Fmt) (s : TopLevelShape) : Str → Prop
  | self : ShapeText f s []
  | trait {t} : TraitText f s.traits t → ShapeText f s (%s"::trait::" ++ t)
  | member {m} : HasMemberShape s.body m → ShapeText f s (%s"::" ++ m.id ++ %s"=>" ++ m.target.display)
  | memberTrait {m t} : HasMemberShape s.body m → TraitText f m.traits t →
      ShapeText f s (%s"::" ++ m.id ++ %s"::trait::" ++ t)
  | target {n id} : HasTarget s.body n id → ShapeText f s (%s"::" ++ n ++ %s"=>" ++ id.display)
  | version {v : Service} : s.body = .service v → ShapeText f s (%s"::version<=" ++ f.debug v.version)
  | rename {v : Service} {id n} : s.body = .service v → v.renames.get id = some n →
      ShapeText f s (%s"::rename::" ++ id.display ++ %s"<=" ++ n)
  | identifier {r : Resource} {n id} : s.body = .resource r → r.identifiers.get n = some id →
      ShapeText f s (%s"::identifier::" ++ n ++ %s"=>" ++ id.display)

/-- The lines of a model. -/
inductive LineOf (f : Fmt) (m : Model) : Str → Prop
  | metadata {k v t} : m.metadata.get k = some v → ValueText f v t → LineOf f m (%s"meta::" ++ k ++ %s"<=" ++ t)
  | shape {id s t} : m.shape id = some s → ShapeText f s t → LineOf f m (typeWord s.body ++ %s"::" ++ id.display ++ t)

mutual
  /-- The number of leaves of a value (an empty array or object is a leaf). -/
  def leaves : Value → Nat
    | .array vs => if vs.isEmpty then 1 else leavesList vs
    | .object vs => if vs.isEmpty then 1 else leavesObj vs
    | _ => 1
  termination_by structural x => x
  def leavesList : List Value → Nat
    | [] => 0
    | v :: vs => leaves v + leavesList vs
  termination_by structural x => x
  def leavesObj : List (Str × Value) → Nat
    | [] => 0
    | e :: es => leavesEntry e + leavesObj es
  termination_by structural x => x
  def leavesEntry : Str × Value → Nat
    | (_, v) => leaves v
  termination_by structural x => x
end

/-- Lines for a set of traits: one per valueless trait, one per leaf of each value. -/
def traitLines (ts : Traits) : Nat := (ts.map fun e => match e.2 with | none => 1 | some v => leaves v).sum

/-- Lines for the members and properties of a shape: one per member and one per member trait line; one per property. -/
def kindLines : ShapeKind → Nat
  | .list m | .set m => 1 + traitLines m.traits
  | .map k v => 2 + traitLines k.traits + traitLines v.traits
  | .struct ms | .union ms => (ms.map fun e => 1 + traitLines e.2.traits).sum
  | .service s => 1 + s.operations.length + s.resources.length + s.renames.length
  | .operation o => o.input.toList.length + o.output.toList.length + o.errors.length
  | .resource r => r.identifiers.length + r.create.toList.length + r.put.toList.length + r.read.toList.length +
      r.update.toList.length + r.delete.toList.length + r.list.toList.length + r.operations.length +
      r.collectionOperations.length + r.resources.length
  | .simple _ | .unresolved => 0

end Verif.Spec
