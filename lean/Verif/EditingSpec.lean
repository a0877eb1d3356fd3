/-
Small independent specification for C100 and C101: which trait each question about a shape asks for, what a history of calls leaves, what
the members of a shape are, and what the values of the aggregate types are that a client can make.
-/
import Verif.Editing
import Verif.MergeSpec
import Verif.IdentitySpec

namespace Verif.Spec

/-- The methods and the prelude trait that each is about. -/
def asks : List (TraitQuestion × Str) :=
  [(.hasDocumentation, %s"documentation"), (.hasExternalDocumentation, %s"externalDocumentation"), (.hasLength, %s"length"),
   (.hasPattern, %s"pattern"), (.hasRequiredLength, %s"requiresLength"), (.isBoxed, %s"box"), (.isDeprecated, %s"deprecated"),
   (.isError, %s"error"), (.isIdempotent, %s"idempotent"), (.isNoReplace, %s"noReplace"), (.isPaginated, %s"paginated"),
   (.isPrivate, %s"private"), (.isReadonly, %s"readonly"), (.isReferences, %s"references"), (.isRequired, %s"required"),
   (.isSensitive, %s"sensitive"), (.isStreaming, %s"streaming"), (.isSince, %s"since"), (.isTagged, %s"tags"), (.isTitled, %s"title"),
   (.isTrait, %s"trait"), (.hasUniqueItems, %s"uniqueItems"), (.isUnstable, %s"unstable")]

/-- The trait of the prelude with the name. -/
def preludeTrait (n : Str) : ShapeID := ⟨%s"smithy.api", n, none⟩

/-- The call applies the trait to the element. -/
inductive Gives : TraitCall → ShapeID → Prop
  | apply {id} : Gives (.apply id) id
  | applyWithValue {id v} : Gives (.applyWithValue id v) id
  | append {l : Traits} {id v} : (id, v) ∈ l → Gives (.append l) id

/-- Each call returned `Ok`, one after another. -/
inductive AllSucceed : Traits → List TraitCall → Prop
  | nil {ts} : AllSucceed ts []
  | cons {ts c cs} : (c.run ts).2 = .ok () → AllSucceed (c.run ts).1 cs → AllSucceed ts (c :: cs)

/-- The trait is on the element at the end: it was there, or a call gave it, and it was not removed later. -/
def Left (before : Traits) (calls : List TraitCall) (id : ShapeID) : Prop :=
  (∃ v, before.get id = some v) ∧ TraitCall.remove id ∉ calls ∨
  ∃ earlier c later, calls = earlier ++ c :: later ∧ Gives c id ∧ TraitCall.remove id ∉ later

/-- What is a member of a shape, and under which name (names compare without regard to case in lists, sets and maps only). -/
inductive IsMemberOf : ShapeKind → Str → MemberShape → Prop
  | list {m n} : SameName n %s"member" → IsMemberOf (.list m) n m
  | set {m n} : SameName n %s"member" → IsMemberOf (.set m) n m
  | key {k v n} : SameName n %s"key" → IsMemberOf (.map k v) n k
  | value {k v n} : SameName n %s"value" → IsMemberOf (.map k v) n v
  | struct {ms n m} : (n, m) ∈ ms → IsMemberOf (.struct ms) n m
  | union {ms n m} : (n, m) ∈ ms → IsMemberOf (.union ms) n m

/-- The types of shapes that have members by the Smithy specification. -/
inductive Aggregate : ShapeKind → Prop
  | list {m} : Aggregate (.list m)
  | set {m} : Aggregate (.set m)
  | map {k v} : Aggregate (.map k v)
  | struct {ms} : Aggregate (.struct ms)
  | union {ms} : Aggregate (.union ms)

/-- The members that a client can make: any name, target and traits. -/
def AnyMember (m : MemberShape) : Prop := WfTraits m.traits

/-- The values of `ListOrSet` that a client can make. -/
inductive AList : MemberShape → Prop
  | new (t : ShapeID) : AList (listNew t)
  | from {m l} : AnyMember m → listFrom m = .ok l → AList l
  | setMember {l m l'} : AList l → AnyMember m → listSetMember l m = .ok l' → AList l'

/-- The values of `Map` that a client can make. -/
inductive AMapShape : MemberShape × MemberShape → Prop
  | new (k v : ShapeID) : AMapShape (mapNew k v)
  | from {k v} : AnyMember k → AnyMember v → AMapShape (mapFrom k v)
  | setKey {m k m'} : AMapShape m → AnyMember k → mapSetKey m k = .ok m' → AMapShape m'
  | setValue {m v m'} : AMapShape m → AnyMember v → mapSetValue m v = .ok m' → AMapShape m'

/-- The values of `Map` made without `Map::from`. -/
inductive ANewMap : MemberShape × MemberShape → Prop
  | new (k v : ShapeID) : ANewMap (mapNew k v)
  | setKey {m k m'} : ANewMap m → AnyMember k → mapSetKey m k = .ok m' → ANewMap m'
  | setValue {m v m'} : ANewMap m → AnyMember v → mapSetValue m v = .ok m' → ANewMap m'

/-- The values of `StructureOrUnion` that a client can make. -/
inductive AStruct : AMap Str MemberShape → Prop
  | new : AStruct []
  | withMembers {l : List MemberShape} : (∀ m ∈ l, AnyMember m) → AStruct (withMembers l)
  | addMember {ms} (n : Str) (t : ShapeID) : AStruct ms → AStruct (addMember ms n t)
  | addAMember {ms m} : AnyMember m → AStruct ms → AStruct (addAMember ms m)
  | removeMember {ms} (n : Str) : AStruct ms → AStruct (removeMember ms n)

/-- An edit through `shape_mut` that leaves the id of the shape alone. -/
inductive KeepsId : ShapeEdit → Prop
  | setBody {b} : WfKind b → KeepsId (.setBody b)
  | traits {c} : (∀ id v, c = .applyWithValue id (some v) → v.Wf) → (∀ l, c = .append l → WfTraits l) → KeepsId (.traits c)
  | traitsMut {ts} : WfTraits ts → KeepsId (.traitsMut ts)

/-- A model made by any calls of `Model`, and by edits through `shape_mut` other than `set_id`. -/
inductive EditReachable : Model → Prop
  | new (v : Version) : EditReachable (Model.new v)
  | addMetadata {m : Model} (k : Str) {v : Value} : v.Wf → EditReachable m → EditReachable (m.addMetadata k v).1
  | removeMetadata {m : Model} (k : Str) : EditReachable m → EditReachable (m.removeMetadata k)
  | addShape {m : Model} {s : TopLevelShape} : WfShape s → EditReachable m → EditReachable (m.addShape s).1
  | removeShape {m : Model} (id : ShapeID) : EditReachable m → EditReachable (m.removeShape id)
  | merge {m o : Model} : EditReachable m → EditReachable o → EditReachable (m.merge o).1
  | edit {m : Model} (id : ShapeID) {e : ShapeEdit} : KeepsId e → EditReachable m → EditReachable (m.editShape id e)

end Verif.Spec
