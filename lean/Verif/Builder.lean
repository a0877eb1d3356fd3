/-
Model of atelier-core/src/builder/{id,traits,shapes,mod}.rs and of the tables of atelier-core/src/prelude.rs.
-/
import Verif.Model

namespace Verif

/-- `ShapeName`, atelier-core/src/builder/id.rs:20-23. -/
inductive ShapeName where
  | qualified (id : ShapeID)
  | local' (name : Str)
  deriving DecidableEq, Repr

namespace ShapeName

/-- `FromStr for ShapeName`, atelier-core/src/builder/id.rs:62-74. -/
def fromStr (s : Str) : Except Err ShapeName :=
  if ShapeID.isValid s then (ShapeID.fromStr s).map qualified
  else if isIdent s then .ok (local' s)
  else .error (.invalidShapeID s)

/-- `Display for ShapeName`, atelier-core/src/builder/id.rs:37-48. -/
def display : ShapeName → Str
  | qualified id => id.display
  | local' n => n

/-- `ShapeName::shape_name`, atelier-core/src/builder/id.rs:102-107. -/
def shapeName : ShapeName → Str
  | qualified id => id.name
  | local' n => n

end ShapeName

/-- `Result::unwrap`. -/
def unwrap {α : Type} : Except Err α → Except Err α
  | .ok a => .ok a
  | .error _ => .error .panic

/-- `TraitBuilder`, atelier-core/src/builder/traits.rs:37-40. -/
structure TraitBuilder where
  name : ShapeName
  value : TraitValue
  deriving Repr

/-- `MemberBuilder`, atelier-core/src/builder/shapes.rs:159-163. -/
structure MemberBuilder where
  name : Str
  traits : List TraitBuilder
  target : ShapeName
  deriving Repr

/-- The part of a shape builder specific to its kind: `TopLevelShapeBuilder`, atelier-core/src/builder/mod.rs:57-68, and
the fields other than the name and the traits of the builders at atelier-core/src/builder/shapes.rs:78-155. -/
inductive BuilderBody where
  | simple (s : Simple)
  | list (member : MemberBuilder)
  | set (member : MemberBuilder)
  | map (key value : MemberBuilder)
  | struct (members : List MemberBuilder)
  | union (members : List MemberBuilder)
  | service (version : Str) (operations resources : List ShapeName) (renames : AMap ShapeID Str)
  | operation (input output : Option ShapeName) (errors : List ShapeName)
  | resource (identifiers : AMap Str ShapeName) (create put read update delete list : Option ShapeName)
      (operations collectionOperations resources : List ShapeName)
  | reference
  deriving Repr

/-- Any of the shape builders, atelier-core/src/builder/shapes.rs:78-155: each has a name (`shape_id` for references) and
a vector of traits. -/
structure Builder where
  name : ShapeName
  traits : List TraitBuilder
  body : BuilderBody
  deriving Repr

/-- `matches!(builder, TopLevelShapeBuilder::Reference(_))`, atelier-core/src/builder/mod.rs:226. -/
def BuilderBody.isReference : BuilderBody → Bool
  | .reference => true
  | _ => false

/-- `ModelBuilder`, atelier-core/src/builder/mod.rs:46-53. The fields `make_references` and `prelude_namespace` are never
read. -/
structure ModelBuilder where
  version : Version
  defaultNs : Str
  metadata : AMap Str Value
  shapes : AMap ShapeName Builder
  deriving Repr

/-- `PRELUDE_NAMESPACE`, atelier-core/src/prelude.rs:26. -/
def preludeNs : Str := %s"smithy.api"

/-- `PRELUDE_SHAPES`, atelier-core/src/prelude.rs:76-100. -/
def preludeShapes : List Str :=
  [%s"String", %s"Blob", %s"BigInteger", %s"BigDecimal", %s"Timestamp", %s"Document", %s"Boolean",
   %s"PrimitiveBoolean", %s"Byte", %s"PrimitiveByte", %s"Short", %s"PrimitiveShort", %s"Integer",
   %s"PrimitiveInteger", %s"Long", %s"PrimitiveLong", %s"Float", %s"PrimitiveFloat", %s"Double", %s"PrimitiveDouble"]

/-- `PRELUDE_TRAITS`, atelier-core/src/prelude.rs:104-180. -/
def preludeTraits : List Str :=
  [%s"xmlFlattened", %s"references", %s"StructurallyExclusive", %s"streaming", %s"requiresLength", %s"uniqueItems",
   %s"examples", %s"timestampFormat", %s"httpError", %s"httpBasicAuth", %s"documentation", %s"httpQuery",
   %s"suppress", %s"since", %s"trait", %s"httpBearerAuth", %s"httpPayload", %s"httpApiKeyAuth", %s"cors", %s"idRef",
   %s"unstable", %s"hostLabel", %s"NonEmptyString", %s"private", %s"title", %s"required", %s"enum",
   %s"idempotencyToken", %s"tags", %s"HttpApiKeyLocations", %s"optionalAuth", %s"xmlAttribute", %s"xmlName",
   %s"httpHeader", %s"authDefinition", %s"resourceIdentifier", %s"Example", %s"mediaType", %s"httpChecksumRequired",
   %s"idempotent", %s"endpoint", %s"eventHeader", %s"sensitive", %s"TraitShapeIdList", %s"error", %s"EnumDefinition",
   %s"protocolDefinition", %s"EnumConstantBodyName", %s"deprecated", %s"httpPrefixHeaders", %s"eventPayload",
   %s"noReplace", %s"http", %s"externalDocumentation", %s"jsonName", %s"auth", %s"retryable", %s"httpDigestAuth",
   %s"range", %s"box", %s"TraitShapeId", %s"Reference", %s"NonEmptyStringMap", %s"paginated", %s"NonEmptyStringList",
   %s"pattern", %s"readonly", %s"recommended", %s"httpLabel", %s"AuthTraitReference", %s"xmlNamespace", %s"length"]

namespace ModelBuilder

/-- `ModelBuilder::new`, atelier-core/src/builder/mod.rs:104-113. -/
def new (v : Version) (ns : Str) : Except Err ModelBuilder :=
  (unwrap (NamespaceID.fromStr ns)).map fun ns => ⟨v, ns, [], []⟩

/-- `ModelBuilder::insert`, atelier-core/src/builder/mod.rs:215-221, called by `simple_shape`, `list`, ..., `reference`
(124-204) with the builder's own name. -/
def insert (mb : ModelBuilder) (b : Builder) : ModelBuilder := { mb with shapes := AMap.insert mb.shapes b.name b }

/-- `ModelBuilder::meta_data`, atelier-core/src/builder/mod.rs:200-203. -/
def metaData (mb : ModelBuilder) (k : Str) (v : Value) : ModelBuilder := { mb with metadata := AMap.insert mb.metadata k v }

/-- `ModelBuilder::uses`, atelier-core/src/builder/mod.rs:181-183, with `ReferenceBuilder::new`
(shapes.rs:758-762). -/
def uses (mb : ModelBuilder) (s : Str) : Except Err ModelBuilder :=
  (unwrap (ShapeID.fromStr s)).map fun id => mb.insert ⟨.qualified id, [], .reference⟩

/-- `ModelBuilder::reference_names`, atelier-core/src/builder/mod.rs:223-228. -/
def referenceNames (mb : ModelBuilder) : List ShapeName := (mb.shapes.filter fun e => e.2.body.isReference).map (·.1)

/-- `ModelBuilder::resolve_shape_name`, atelier-core/src/builder/mod.rs:246-315 (the logging is not modelled). -/
def resolveShapeName (mb : ModelBuilder) (name : ShapeName) (isTrait : Bool) : Except Err (ShapeID × Bool) :=
  match name with
  | .qualified q => if !q.isMember then .ok (q, false) else .error (.shapeIDExpected q)
  | .local' l =>
    match mb.referenceNames.filter (fun n => identEq n.shapeName l) with
    | [.qualified id] => .ok (id, false)
    | [.local' _] => .error .panic
    | [] =>
      if AMap.contains mb.shapes (.local' l) then .ok (NamespaceID.makeShape mb.defaultNs l, false)
      else if (!isTrait && preludeShapes.contains l) || (isTrait && preludeTraits.contains l) then
        .ok (NamespaceID.makeShape preludeNs l, false)
      else .ok (NamespaceID.makeShape mb.defaultNs l, true)
    | _ => .error (.ambiguousShape l)

end ModelBuilder

/-! The functions `make_*` take a `&mut HashSet<ShapeID>` into which they only insert. They are modelled as returning the
inserted ids beside their result. -/

/-- A fallible computation that inserts into the set `references`. -/
def Mk (α : Type) := Except Err (α × List ShapeID)

/-- A computation with no insertion. -/
protected def Mk.pure {α : Type} (a : α) : Mk α := .ok (a, [])

/-- Sequencing: an error stops, the insertions accumulate. -/
protected def Mk.bind {α β : Type} (x : Mk α) (f : α → Mk β) : Mk β :=
  match x with
  | .error e => .error e
  | .ok (a, r) => match f a with
    | .error e => .error e
    | .ok (b, r') => .ok (b, r ++ r')

instance : Monad Mk where
  pure := Mk.pure
  bind := Mk.bind

/-- A fallible computation without insertion. -/
def Mk.lift {α : Type} : Except Err α → Mk α
  | .ok a => .ok (a, [])
  | .error e => .error e

/-- A sequential loop over a list collecting the results (`iter().map(..).collect::<Result<Vec<_>,_>>()`, and the `for`
loops pushing onto a vector). -/
def Mk.mapL {α β : Type} (f : α → Mk β) : List α → Mk (List β)
  | [] => Mk.pure []
  | a :: l => do
    let b ← f a
    let bs ← Mk.mapL f l
    pure (b :: bs)

/-- `if let Some(x) = .. { .. }`. -/
def Mk.mapO {α β : Type} (f : α → Mk β) : Option α → Mk (Option β)
  | none => Mk.pure none
  | some a => do
    let b ← f a
    pure (some b)

namespace ModelBuilder

/-- The repeated pattern `let (id, new_reference) = self.resolve_shape_name(name, is_trait)?; if new_reference {
references.insert(id.clone()) }`, e.g. atelier-core/src/builder/mod.rs:376-379. -/
def resolve (mb : ModelBuilder) (isTrait : Bool) (name : ShapeName) : Mk ShapeID :=
  match mb.resolveShapeName name isTrait with
  | .ok (id, new) => .ok (id, if new then [id] else [])
  | .error e => .error e

/-- The closure in `make_traits`, atelier-core/src/builder/mod.rs:706-712. -/
def makeTrait (mb : ModelBuilder) (t : TraitBuilder) : Mk (ShapeID × TraitValue) := do
  let id ← mb.resolve true t.name
  pure (id, t.value)

/-- `ModelBuilder::make_traits`, atelier-core/src/builder/mod.rs:698-718. -/
def makeTraits (mb : ModelBuilder) (ts : List TraitBuilder) : Mk Traits := do
  let pairs ← Mk.mapL mb.makeTrait ts
  pure (AMap.ofList pairs)

/-- Resolving the target and then `MemberShape::with_traits(name, target_id, self.make_traits(..)?)`,
atelier-core/src/builder/mod.rs:397-406, 421-430, 480-489. -/
def makeMember (mb : ModelBuilder) (m : MemberBuilder) : Mk MemberShape := do
  let target ← mb.resolve false m.target
  let traits ← mb.makeTraits m.traits
  pure ⟨m.name, traits, target⟩

/-- The member of `make_map`, atelier-core/src/builder/mod.rs:444-467. -/
def makeKeyValue (mb : ModelBuilder) (k v : MemberBuilder) : Mk (MemberShape × MemberShape) := do
  let kt ← mb.resolve false k.target
  let vt ← mb.resolve false v.target
  let ktr ← mb.makeTraits k.traits
  let vtr ← mb.makeTraits v.traits
  pure (⟨k.name, ktr, kt⟩, ⟨v.name, vtr, vt⟩)

/-- The identifiers loop of `make_resource`, atelier-core/src/builder/mod.rs:609-615. -/
def makeIdentifier (mb : ModelBuilder) (e : Str × ShapeName) : Mk (Str × ShapeID) := do
  let id ← mb.resolve false e.2
  pure (e.1, id)

/-- The body of the shape: the part of `make_simple_shape`, ..., `make_reference` (atelier-core/src/builder/mod.rs:371-696)
between resolving the shape's own name and making its traits. `make_set` builds a `ShapeKind::List` (mod.rs:424-431). -/
def makeBody (mb : ModelBuilder) : BuilderBody → Mk ShapeKind
  | .simple s => pure (.simple s)
  | .list m => do
    let m ← mb.makeMember m
    let m ← Mk.lift (listFrom m)
    pure (.list m)
  | .set m => do
    let m ← mb.makeMember m
    let m ← Mk.lift (listFrom m)
    pure (.list m)
  | .map k v => do
    let (k, v) ← mb.makeKeyValue k v
    pure (.map k v)
  | .struct ms => do
    let ms ← Mk.mapL mb.makeMember ms
    pure (.struct (withMembers ms))
  | .union ms => do
    let ms ← Mk.mapL mb.makeMember ms
    pure (.union (withMembers ms))
  | .service version ops res ren => do
    let s ← Mk.lift (Service.new version)
    let ops ← Mk.mapL (mb.resolve false) ops
    let res ← Mk.mapL (mb.resolve false) res
    pure (.service { s with operations := arrayAppend s.operations ops, resources := arrayAppend s.resources res, renames := AMap.ofList ren })
  | .operation input output errors => do
    let input ← Mk.mapO (mb.resolve false) input
    let output ← Mk.mapO (mb.resolve false) output
    let errors ← Mk.mapL (mb.resolve false) errors
    pure (.operation ⟨input, output, arrayAppend [] errors⟩)
  | .resource ids create put read update delete list ops cops res => do
    let ids ← Mk.mapL mb.makeIdentifier ids
    let create ← Mk.mapO (mb.resolve false) create
    let put ← Mk.mapO (mb.resolve false) put
    let read ← Mk.mapO (mb.resolve false) read
    let update ← Mk.mapO (mb.resolve false) update
    let delete ← Mk.mapO (mb.resolve false) delete
    let list ← Mk.mapO (mb.resolve false) list
    let ops ← Mk.mapL (mb.resolve false) ops
    let cops ← Mk.mapL (mb.resolve false) cops
    let res ← Mk.mapL (mb.resolve false) res
    pure (.resource ⟨AMap.ofList ids, create, put, read, update, delete, list, arrayAppend [] ops, arrayAppend [] cops,
      arrayAppend [] res⟩)
  | .reference => pure .unresolved

/-- The id of the shape: resolving `builder.shape_name` (e.g. atelier-core/src/builder/mod.rs:376-379), or
`builder.shape_id.as_qualified().unwrap()` in `make_reference` (692). -/
def makeId (mb : ModelBuilder) (b : Builder) : Mk ShapeID :=
  match b.body, b.name with
  | .reference, .qualified id => .ok (id, [])
  | .reference, .local' _ => .error .panic
  | _, n => mb.resolve false n

/-- `ModelBuilder::make_shape`, atelier-core/src/builder/mod.rs:350-369: id, then body, then traits. -/
def makeShape (mb : ModelBuilder) (b : Builder) : Mk TopLevelShape := do
  let id ← mb.makeId b
  let body ← mb.makeBody b.body
  let traits ← mb.makeTraits b.traits
  pure ⟨id, traits, body⟩

end ModelBuilder

/-- `let _ = model.add_metadata(..)`, atelier-core/src/builder/mod.rs:88-90: errors are dropped. -/
def Model.addMetadataIgnoring (m : Model) : List (Str × Value) → Model
  | [] => m
  | (k, v) :: rest => Model.addMetadataIgnoring (m.addMetadata k v).1 rest

/-- `let _ = model.add_shape(..)`, atelier-core/src/builder/mod.rs:93, 96: errors are dropped, but a panic is not an
`Err` value and still unwinds. -/
def Model.addShapeIgnoring (m : Model) (s : TopLevelShape) : Except Err Model :=
  match m.addShape s with
  | (_, .error .panic) => .error .panic
  | (m', _) => .ok m'

namespace ModelBuilder

/-- The loop over `builder.shapes.values()`, atelier-core/src/builder/mod.rs:92-94. -/
def addBuilt (mb : ModelBuilder) (m : Model) : List Builder → Mk Model
  | [] => Mk.pure m
  | b :: rest => do
    let s ← mb.makeShape b
    let m ← Mk.lift (m.addShapeIgnoring s)
    addBuilt mb m rest

/-- The loop over the unresolved references, atelier-core/src/builder/mod.rs:95-97. -/
def addUnresolved (m : Model) : List ShapeID → Except Err Model
  | [] => .ok m
  | id :: rest =>
    match m.addShapeIgnoring (TopLevelShape.new id .unresolved) with
    | .error e => .error e
    | .ok m => addUnresolved m rest

/-- `TryFrom<&mut ModelBuilder> for Model`, atelier-core/src/builder/mod.rs:83-100. The metadata and the shapes are
enumerated in the (arbitrary) order of their association lists; `enum` is the order in which the `HashSet` of inserted
references is enumerated. -/
def build (mb : ModelBuilder) (enum : List ShapeID → List ShapeID) : Except Err Model :=
  match mb.addBuilt ((Model.new mb.version).addMetadataIgnoring mb.metadata) (AMap.values mb.shapes) with
  | .error e => .error e
  | .ok (m, refs) => addUnresolved m (enum refs)

end ModelBuilder

/-! ### `apply` -/

/-- `ShapeTraits::apply_trait` on a member, atelier-core/src/builder/shapes.rs:63-72. -/
def MemberBuilder.applyTrait (m : MemberBuilder) (t : TraitBuilder) : MemberBuilder := { m with traits := m.traits ++ [t] }

/-- `apply_to_shape`, atelier-core/src/builder/mod.rs:789-822 (every variant has the same effect). -/
def Builder.applyTrait (b : Builder) (t : TraitBuilder) : Builder := { b with traits := b.traits ++ [t] }

/-- `members.iter_mut().find(|m| &m.member_name == member_name)` and `apply_trait` on the result,
atelier-core/src/builder/mod.rs:755-766. -/
def applyToFirst (name : Str) (t : TraitBuilder) : List MemberBuilder → Option (List MemberBuilder)
  | [] => none
  | m :: rest =>
    if identEq m.name name then some (m.applyTrait t :: rest)
    else (applyToFirst name t rest).map (m :: ·)

/-- The `match` of `apply_to_member`, atelier-core/src/builder/mod.rs:725-787; `none` when it panics. -/
def BuilderBody.applyToMember (name : Str) (t : TraitBuilder) : BuilderBody → Option BuilderBody
  | .list m => if name = memberMember then some (.list (m.applyTrait t)) else none
  | .set m => if name = memberMember then some (.set (m.applyTrait t)) else none
  | .map k v =>
    if name = memberKey then some (.map (k.applyTrait t) v)
    else if name = memberValue then some (.map k (v.applyTrait t))
    else none
  | .struct ms => (applyToFirst name t ms).map .struct
  | .union ms => (applyToFirst name t ms).map .union
  | _ => none

namespace ModelBuilder

/-- `ModelBuilder::apply_to` on a qualified name, atelier-core/src/builder/mod.rs:319-335. -/
def applyToQualified (mb : ModelBuilder) (id : ShapeID) (t : TraitBuilder) : Except Err ModelBuilder :=
  match id.member with
  | some m =>
    match AMap.get mb.shapes (.qualified id.shapeOnly) with
    | some b =>
      match b.body.applyToMember m t with
      | some body => .ok { mb with shapes := AMap.insert mb.shapes (.qualified id.shapeOnly) { b with body := body } }
      | none => .error .panic
    | none => .error .panic
  | none =>
    match AMap.get mb.shapes (.qualified id) with
    | some b => .ok { mb with shapes := AMap.insert mb.shapes (.qualified id) (b.applyTrait t) }
    | none => .ok (mb.insert ⟨.qualified id, [t], .reference⟩)

/-- `ModelBuilder::apply_to`, atelier-core/src/builder/mod.rs:317-348. -/
def applyTo (mb : ModelBuilder) (name : ShapeName) (t : TraitBuilder) : Except Err ModelBuilder :=
  match name with
  | .qualified id => mb.applyToQualified id t
  | .local' l =>
    match mb.resolveShapeName (.local' l) false with
    | .error _ => .error .panic
    | .ok (id, new) =>
      let mb' := if new then mb.insert ⟨.qualified id, [], .reference⟩ else mb
      mb'.applyToQualified id t

/-- `ModelBuilder::apply`, atelier-core/src/builder/mod.rs:188-191. -/
def apply (mb : ModelBuilder) (s : Str) (t : TraitBuilder) : Except Err ModelBuilder :=
  match ShapeName.fromStr s with
  | .error _ => .error .panic
  | .ok n => mb.applyTo n t

end ModelBuilder
end Verif
