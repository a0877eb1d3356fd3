/-
Model of the questions about traits and members of a shape, and of editing a shape that is stored in a model
(atelier-core/src/model/shapes/mod.rs, aggregate.rs, atelier-core/src/model/mod.rs, prelude.rs).
-/
import Verif.Model
import Verif.Builder

namespace Verif

/-! ### Questions about traits -/

/-- The methods of `HasTraits` that ask for one trait of the prelude, atelier-core/src/model/shapes/mod.rs:112-226, in the order of the file. -/
inductive TraitQuestion where
  | hasDocumentation | hasExternalDocumentation | hasLength | hasPattern | hasRequiredLength
  | isBoxed | isDeprecated | isError | isIdempotent | isNoReplace | isPaginated | isPrivate | isReadonly
  | isReferences | isRequired | isSensitive | isStreaming | isSince | isTagged | isTitled | isTrait
  | hasUniqueItems | isUnstable
  deriving DecidableEq, Repr

namespace TraitQuestion

/-- The constant of atelier-core/src/prelude.rs (313-740) that each method passes to `prelude_name`,
atelier-core/src/model/shapes/mod.rs:113-225. -/
def constant : TraitQuestion → Str
  | hasDocumentation => %s"documentation"
  | hasExternalDocumentation => %s"externalDocumentation"
  | hasLength => %s"length"
  | hasPattern => %s"pattern"
  | hasRequiredLength => %s"requiresLength"
  | isBoxed => %s"box"
  | isDeprecated => %s"deprecated"
  | isError => %s"error"
  | isIdempotent => %s"idempotent"
  | isNoReplace => %s"noReplace"
  | isPaginated => %s"paginated"
  | isPrivate => %s"private"
  | isReadonly => %s"readonly"
  | isReferences => %s"references"
  | isRequired => %s"required"
  | isSensitive => %s"sensitive"
  | isStreaming => %s"streaming"
  | isSince => %s"since"
  | isTagged => %s"tags"
  | isTitled => %s"title"
  | isTrait => %s"trait"
  | hasUniqueItems => %s"uniqueItems"
  | isUnstable => %s"unstable"

/-- The body of each method, `self.has_trait(&prelude_name(CONSTANT))`, atelier-core/src/model/shapes/mod.rs:112-226; `prelude_name`
(529-531) does not check the name. -/
def ask (q : TraitQuestion) (ts : Traits) : Bool := hasTrait ts ⟨preludeNs, q.constant, none⟩

end TraitQuestion

/-- `HasTraits::has_traits`, atelier-core/src/model/shapes/mod.rs:54-56. -/
def hasTraits (ts : Traits) : Bool := !ts.isEmpty

/-- `HasTraits::trait_named`, atelier-core/src/model/shapes/mod.rs:71-73. -/
def traitNamed (ts : Traits) (id : ShapeID) : Option TraitValue := AMap.get ts id

/-- The calls of `HasTraits` that change the traits of an element, atelier-core/src/model/shapes/mod.rs:76-107. -/
inductive TraitCall where
  | apply (id : ShapeID)
  | applyWithValue (id : ShapeID) (v : TraitValue)
  | append (l : Traits)
  | remove (id : ShapeID)

/-- What a call does, and its result (`remove_trait` returns nothing): atelier-core/src/model/shapes/mod.rs:76-107; `apply` (76-78)
is `apply_with_value` without a value. -/
def TraitCall.run (ts : Traits) : TraitCall → Traits × Except Err Unit
  | .apply id => Verif.applyWithValue ts id none
  | .applyWithValue id v => Verif.applyWithValue ts id v
  | .append l => appendTraits ts l
  | .remove id => (removeTrait ts id, .ok ())

/-- Calls one after another, by a client that goes on after an error. -/
def TraitCall.runAll (ts : Traits) : List TraitCall → Traits
  | [] => ts
  | c :: cs => runAll (c.run ts).1 cs

/-! ### The prelude -/

/-- `prelude_shape_named`, atelier-core/src/prelude.rs:51-57. -/
def preludeShapeNamed (name : Str) : Except Err ShapeID := do
  let n ← Identifier.fromStr name
  return ⟨preludeNs, n, none⟩

/-! ### Lists, sets, maps -/

/-- `Map::new`, atelier-core/src/model/shapes/aggregate.rs:130-135. -/
def mapNew (key value : ShapeID) : MemberShape × MemberShape := (MemberShape.new memberKey key, MemberShape.new memberValue value)

/-- `Map::from`, atelier-core/src/model/shapes/aggregate.rs:138-140 (nothing is checked). -/
def mapFrom (key value : MemberShape) : MemberShape × MemberShape := (key, value)

/-- `Map::set_key`, atelier-core/src/model/shapes/aggregate.rs:148-151. -/
def mapSetKey (m : MemberShape × MemberShape) (key : MemberShape) : Except Err (MemberShape × MemberShape) :=
  if identEq key.id m.1.id then .ok (key, m.2) else .error .panic

/-- `Map::set_value`, atelier-core/src/model/shapes/aggregate.rs:159-162. -/
def mapSetValue (m : MemberShape × MemberShape) (value : MemberShape) : Except Err (MemberShape × MemberShape) :=
  if identEq value.id m.2.id then .ok (m.1, value) else .error .panic

/-- `StructureOrUnion::has_members`, atelier-core/src/model/shapes/aggregate.rs:197-199. -/
def structHasMembers (ms : AMap Str MemberShape) : Bool := !ms.isEmpty

/-! ### Editing a stored shape -/

/-- What can be done with the `&mut TopLevelShape` that `Model::shape_mut` gives: `HasIdentity::set_id` (atelier-core/src/model/shapes/mod.rs:391-393),
`set_body` (442-444; also stands for edits through `body_mut`, 435-437), a call of `HasTraits`, or a change of the map that `traits_mut`
(278-284) gives. -/
inductive ShapeEdit where
  | setId (id : ShapeID)
  | setBody (b : ShapeKind)
  | traits (c : TraitCall)
  | traitsMut (ts : Traits)

/-- See `ShapeEdit`. -/
def ShapeEdit.run (s : TopLevelShape) : ShapeEdit → TopLevelShape
  | .setId id => { s with id := id }
  | .setBody b => { s with body := b }
  | .traits c => { s with traits := (c.run s.traits).1 }
  | .traitsMut ts => { s with traits := ts }

/-- `Model::shape_mut`, atelier-core/src/model/mod.rs:201-203, followed by an edit of the shape it gives (nothing happens when there is
none). The shape stays where it is in the map. -/
def Model.editShape (m : Model) (id : ShapeID) (e : ShapeEdit) : Model :=
  match AMap.get m.shapes id with
  | some s => { m with shapes := AMap.insert m.shapes id (e.run s) }
  | none => m

end Verif
