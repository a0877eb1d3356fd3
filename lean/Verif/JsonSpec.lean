/-
Independent specification of the Smithy JSON AST (https://awslabs.github.io/smithy/1.0/spec/core/json-ast.html): when a JSON
document is the AST of a model. Objects are described by their lookups, so the order of their entries does not matter.
-/
import Verif.Json
import Verif.ModelSpec
import Verif.IdentityLemmas

namespace Verif.Spec

/-- The JSON number denotes the integer `n`. -/
inductive JsonInt : Int → JNum → Prop
  | nonneg {n : Nat} : JsonInt n (.posInt n)
  | negative {n : Int} : n < 0 → JsonInt n (.negInt n)

/-- The JSON value denotes the node value. -/
inductive JsonOf : Value → Json → Prop
  | none : JsonOf .none .null
  | boolean {b} : JsonOf (.boolean b) (.bool b)
  | string {s} : JsonOf (.string s) (.string s)
  | integer {n j} : JsonInt n j → JsonOf (.number (.integer n)) (.number j)
  | float {x : F64} : x.isFinite = true → JsonOf (.number (.float x)) (.number (.float x))
  | array {a : List Value} {l : List Json} : a.length = l.length →
      (∀ (i : Nat) x y, a[i]? = some x → l[i]? = some y → JsonOf x y) → JsonOf (.array a) (.array l)
  | object {m : AMap Str Value} {o : AMap Str Json} : AMap.Wf o → (∀ k, (m.get k).isSome = (o.get k).isSome) →
      (∀ k x y, m.get k = some x → o.get k = some y → JsonOf x y) → JsonOf (.object m) (.object o)

/-- `j` is an object with an entry for each entry of `m` and no other: keys printed by `name`, values related by `R`. -/
def ObjOf {K V : Type} [DecidableEq K] (name : K → Str) (R : V → Json → Prop) (m : AMap K V) (j : Json) : Prop :=
  ∃ o : AMap Str Json, j = .object o ∧ AMap.Wf o ∧
    (∀ k v, m.get k = some v → ∃ w, o.get (name k) = some w ∧ R v w) ∧
    (∀ s w, o.get s = some w → ∃ k v, m.get k = some v ∧ name k = s)

/-- As `ObjOf`, but the object may be left out when the map is empty. -/
def MaybeObj {K V : Type} [DecidableEq K] (name : K → Str) (R : V → Json → Prop) (m : AMap K V) (j : Option Json) : Prop :=
  (m = [] ∧ j = none) ∨ ∃ x, j = some x ∧ ObjOf name R m x

/-- An AST shape reference `{"target": id}`. -/
def RefOf (id : ShapeID) (j : Json) : Prop :=
  ∃ o : AMap Str Json, j = .object o ∧ AMap.Wf o ∧ o.get %s"target" = some (.string id.display)

/-- A list of shape references, which may be left out when empty. -/
def MaybeRefs (ids : List ShapeID) (j : Option Json) : Prop :=
  (ids = [] ∧ j = none) ∨ ∃ l, j = some (.array l) ∧ ListRel RefOf ids l

/-- An annotation trait is `{}`; otherwise the value. -/
def TraitOf : TraitValue → Json → Prop
  | none, j => j = .object []
  | some v, j => JsonOf v j

/-- The `traits` property. -/
def TraitsOf (ts : Traits) (j : Option Json) : Prop := MaybeObj ShapeID.display TraitOf ts j

/-- A member. -/
def MemberOf (m : MemberShape) (j : Json) : Prop :=
  ∃ o : AMap Str Json, j = .object o ∧ AMap.Wf o ∧ o.get %s"target" = some (.string m.target.display) ∧
    TraitsOf m.traits (o.get %s"traits")

/-- The properties of a shape, by type. -/
def KindOf : ShapeKind → AMap Str Json → Prop
  | .simple s, o => o.get %s"type" = some (.string s.display)
  | .list m, o => o.get %s"type" = some (.string %s"list") ∧ OptRel MemberOf (some m) (o.get %s"member")
  | .set m, o => o.get %s"type" = some (.string %s"set") ∧ OptRel MemberOf (some m) (o.get %s"member")
  | .map k v, o => o.get %s"type" = some (.string %s"map") ∧ OptRel MemberOf (some k) (o.get %s"key") ∧
      OptRel MemberOf (some v) (o.get %s"value")
  | .struct ms, o => o.get %s"type" = some (.string %s"structure") ∧ MaybeObj (fun k => k) MemberOf ms (o.get %s"members")
  | .union ms, o => o.get %s"type" = some (.string %s"union") ∧ MaybeObj (fun k => k) MemberOf ms (o.get %s"members")
  | .service s, o => o.get %s"type" = some (.string %s"service") ∧ o.get %s"version" = some (.string s.version) ∧
      MaybeRefs s.operations (o.get %s"operations") ∧ MaybeRefs s.resources (o.get %s"resources") ∧
      MaybeObj ShapeID.display (fun n j => j = .string n) s.renames (o.get %s"rename")
  | .operation p, o => o.get %s"type" = some (.string %s"operation") ∧ OptRel RefOf p.input (o.get %s"input") ∧
      OptRel RefOf p.output (o.get %s"output") ∧ MaybeRefs p.errors (o.get %s"errors")
  | .resource r, o => o.get %s"type" = some (.string %s"resource") ∧
      MaybeObj (fun k => k) RefOf r.identifiers (o.get %s"identifiers") ∧
      OptRel RefOf r.create (o.get %s"create") ∧ OptRel RefOf r.put (o.get %s"put") ∧
      OptRel RefOf r.read (o.get %s"read") ∧ OptRel RefOf r.update (o.get %s"update") ∧
      OptRel RefOf r.delete (o.get %s"delete") ∧ OptRel RefOf r.list (o.get %s"list") ∧
      MaybeRefs r.operations (o.get %s"operations") ∧
      MaybeRefs r.collectionOperations (o.get %s"collectionOperations") ∧ MaybeRefs r.resources (o.get %s"resources")
  | .unresolved, o => o.get %s"type" = some (.string %s"apply")

/-- A shape definition (or an `apply`). -/
def ShapeOf (s : TopLevelShape) (j : Json) : Prop :=
  ∃ o : AMap Str Json, j = .object o ∧ AMap.Wf o ∧ TraitsOf s.traits (o.get %s"traits") ∧ KindOf s.body o

/-- `j` is a JSON AST of the model. -/
def ModelOf (m : Model) (j : Json) : Prop :=
  ∃ o : AMap Str Json, j = .object o ∧ AMap.Wf o ∧ o.get %s"smithy" = some (.string m.version.display) ∧
    MaybeObj (fun k => k) JsonOf m.metadata (o.get %s"metadata") ∧
    MaybeObj ShapeID.display ShapeOf m.shapes (o.get %s"shapes")

/-! ### Conditions on models -/

/-- Traits are applied by valid absolute shape ids (`apply_with_value` refuses member ids). -/
def ValidTraits (ts : Traits) : Prop := ∀ id v, ts.get id = some v → id.Valid ∧ id.member = none

def ValidMember (m : MemberShape) : Prop := m.target.Valid ∧ ValidTraits m.traits

/-- Every identifier in the body is syntactically valid, and service versions are not empty (`Service::new` asserts it). -/
def ValidKind : ShapeKind → Prop
  | .simple _ => True
  | .list m => ValidMember m
  | .set m => ValidMember m
  | .map k v => ValidMember k ∧ ValidMember v
  | .struct ms => ∀ k m, ms.get k = some m → IsIdentifier k ∧ ValidMember m
  | .union ms => ∀ k m, ms.get k = some m → IsIdentifier k ∧ ValidMember m
  | .service s => s.version ≠ [] ∧ (∀ id ∈ s.operations, id.Valid) ∧ (∀ id ∈ s.resources, id.Valid) ∧
      ∀ id n, s.renames.get id = some n → id.Valid ∧ IsIdentifier n
  | .operation o => (∀ id, o.input = some id → id.Valid) ∧ (∀ id, o.output = some id → id.Valid) ∧
      ∀ id ∈ o.errors, id.Valid
  | .resource r => (∀ n id, r.identifiers.get n = some id → IsIdentifier n ∧ id.Valid) ∧
      (∀ l id, r.lifecycle l = some id → id.Valid) ∧ (∀ id ∈ r.operations, id.Valid) ∧
      (∀ id ∈ r.collectionOperations, id.Valid) ∧ ∀ id ∈ r.resources, id.Valid
  | .unresolved => True

/-- Every identifier in the model is syntactically valid. -/
def ValidModel (m : Model) : Prop :=
  ∀ id s, m.shape id = some s → id.Valid ∧ ValidTraits s.traits ∧ ValidKind s.body

/-- A NaN or an infinity occurs in the value. -/
inductive NonFinite : Value → Prop
  | here {x : F64} : x.isFinite = false → NonFinite (.number (.float x))
  | array {vs : List Value} {v : Value} : v ∈ vs → NonFinite v → NonFinite (.array vs)
  | object {m : AMap Str Value} {k : Str} {v : Value} : (k, v) ∈ m → NonFinite v → NonFinite (.object m)

def TraitsAll (P : Value → Prop) (ts : Traits) : Prop := ∀ id v, ts.get id = some (some v) → P v

def KindAll (P : Value → Prop) : ShapeKind → Prop
  | .list m => TraitsAll P m.traits
  | .set m => TraitsAll P m.traits
  | .map k v => TraitsAll P k.traits ∧ TraitsAll P v.traits
  | .struct ms => ∀ k m, ms.get k = some m → TraitsAll P m.traits
  | .union ms => ∀ k m, ms.get k = some m → TraitsAll P m.traits
  | _ => True

/-- Every value in the model (metadata, and traits of shapes and members) has the property. -/
def ModelAll (P : Value → Prop) (m : Model) : Prop :=
  (∀ k v, m.metadata.get k = some v → P v) ∧
  ∀ id s, m.shape id = some s → TraitsAll P s.traits ∧ KindAll P s.body

/-- No NaN or infinity occurs in the model. -/
def FiniteModel (m : Model) : Prop := ModelAll (fun v => ¬ NonFinite v) m

/-! ### What reading a written model changes -/

/-- A valueless trait comes back with an empty object as its value. -/
def normTraitValue : TraitValue → TraitValue
  | none => some (.object [])
  | some v => some v

def normTraits (ts : Traits) : Traits := ts.map fun e => (e.1, normTraitValue e.2)

def normMember (m : MemberShape) : MemberShape := ⟨m.id, normTraits m.traits, m.target⟩

/-- The member of a list or set and both members of a map come back named `member`. -/
def normNamed (m : MemberShape) : MemberShape := ⟨memberMember, normTraits m.traits, m.target⟩

def normKind : ShapeKind → ShapeKind
  | .list m => .list (normNamed m)
  | .set m => .set (normNamed m)
  | .map k v => .map (normNamed k) (normNamed v)
  | .struct ms => .struct (ms.map fun e => (e.1, normMember e.2))
  | .union ms => .union (ms.map fun e => (e.1, normMember e.2))
  | k => k

def normShape (s : TopLevelShape) : TopLevelShape := ⟨s.id, normTraits s.traits, normKind s.body⟩

/-- The model as it comes back. -/
def jsonNormal (m : Model) : Model := ⟨m.version, m.metadata, m.shapes.map fun e => (e.1, normShape e.2)⟩

/-- Every trait has a value. -/
def TraitsHaveValues (ts : Traits) : Prop := ∀ id v, ts.get id = some v → v ≠ none

/-- The member of a list or set, and the key and value of a map, are named `member`, and member traits have values. -/
def KindRoundTrips : ShapeKind → Prop
  | .list m => m.id = memberMember ∧ TraitsHaveValues m.traits
  | .set m => m.id = memberMember ∧ TraitsHaveValues m.traits
  | .map k v => (k.id = memberMember ∧ TraitsHaveValues k.traits) ∧ v.id = memberMember ∧ TraitsHaveValues v.traits
  | .struct ms => ∀ k m, ms.get k = some m → TraitsHaveValues m.traits
  | .union ms => ∀ k m, ms.get k = some m → TraitsHaveValues m.traits
  | _ => True

/-- Every trait has a value, and the members of lists, sets and maps are named `member`. -/
def RoundTrips (m : Model) : Prop := ∀ id s, m.shape id = some s → TraitsHaveValues s.traits ∧ KindRoundTrips s.body

/-! ### JSON documents -/

/-- The `serde_json` values that can exist: each object has each key once, `PosInt` is a `u64`, `NegInt` a negative `i64`,
`Float` is finite. -/
inductive WfJson : Json → Prop
  | null : WfJson .null
  | bool {b} : WfJson (.bool b)
  | string {s} : WfJson (.string s)
  | posInt {n : Nat} : n < 2 ^ 64 → WfJson (.number (.posInt n))
  | negInt {n : Int} : n < 0 → -(2 ^ 63) ≤ n → WfJson (.number (.negInt n))
  | float {x : F64} : x.isFinite = true → WfJson (.number (.float x))
  | array {l : List Json} : (∀ j ∈ l, WfJson j) → WfJson (.array l)
  | object {o : AMap Str Json} : AMap.Wf o → (∀ e ∈ o, WfJson e.2) → WfJson (.object o)

/-- An unsigned integer above `i64::MAX` occurs in the document. -/
inductive HasBigInt : Json → Prop
  | here {n : Nat} : 2 ^ 63 ≤ n → HasBigInt (.number (.posInt n))
  | array {l : List Json} {j : Json} : j ∈ l → HasBigInt j → HasBigInt (.array l)
  | object {o : AMap Str Json} {k : Str} {j : Json} : (k, j) ∈ o → HasBigInt j → HasBigInt (.object o)

/-- Absent, or an object. -/
def ObjectOrAbsent : Option Json → Prop
  | none => True
  | some (.object _) => True
  | some _ => False

/-- Where the reader silently skips a part that is not an object, the part is an object: the traits and members of a
shape and the traits of its members. -/
structure StrictShape (s : Json) : Prop where
  traits : ObjectOrAbsent (s.get %s"traits")
  member : ∀ k x, s.get k = some x → k = %s"member" ∨ k = %s"key" ∨ k = %s"value" → ObjectOrAbsent (x.get %s"traits")
  members : ObjectOrAbsent (s.get %s"members")
  each : ∀ ms k x, s.get %s"members" = some (.object ms) → AMap.get ms k = some x → ObjectOrAbsent (x.get %s"traits")

/-- As `StrictShape`, for a document: also `metadata` and `shapes`. The version is not abbreviated to `"1"`, and integers are
in the range of `i64`. -/
structure StrictDoc (j : Json) : Prop where
  version : j.get %s"smithy" ≠ some (.string %s"1")
  metadata : ObjectOrAbsent (j.get %s"metadata")
  shapes : ObjectOrAbsent (j.get %s"shapes")
  each : ∀ ss k x, j.get %s"shapes" = some (.object ss) → AMap.get ss k = some x → StrictShape x
  ints : ¬ HasBigInt j

/-- The document defines a service whose version is the empty text. -/
def EmptyServiceVersion (j : Json) : Prop :=
  ∃ ss k x, j.get %s"shapes" = some (.object ss) ∧ AMap.get ss k = some x ∧ x.get %s"type" = some (.string %s"service") ∧
    x.get %s"version" = some (.string [])

end Verif.Spec
