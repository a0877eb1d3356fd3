/-
Model of the methods of the shape builders, atelier-core/src/builder/shapes.rs, and of programs that use the builder API.
The methods that apply prelude traits (shapes.rs:21-44, 167-228 and the `add_trait!`s) are `apply_trait` of the functions of
atelier-core/src/builder/traits.rs (see TraitBuilders.lean).
-/
import Verif.TraitBuilders

namespace Verif

/-- `ShapeName::from_str(s).unwrap()`. -/
def nameArg (s : Str) : Except Err ShapeName := unwrap (ShapeName.fromStr s)

/-- `for x in xs { self.method(x); }`, e.g. atelier-core/src/builder/shapes.rs:519-521. -/
def eachArg {S A : Type} (f : S → A → Except Err S) (s : S) : List A → Except Err S
  | [] => .ok s
  | a :: as =>
    match f s a with
    | .error e => .error e
    | .ok s' => eachArg f s' as

/-- The prelude name of a simple shape, `SHAPE_BLOB`, ..., atelier-core/src/prelude.rs:185-302. -/
def Simple.preludeName : Simple → Str
  | .blob => %s"Blob"
  | .boolean => %s"Boolean"
  | .document => %s"Document"
  | .string => %s"String"
  | .byte => %s"Byte"
  | .short => %s"Short"
  | .integer => %s"Integer"
  | .long => %s"Long"
  | .float => %s"Float"
  | .double => %s"Double"
  | .bigInteger => %s"BigInteger"
  | .bigDecimal => %s"BigDecimal"
  | .timestamp => %s"Timestamp"

namespace MemberBuilder

/-- `MemberBuilder::with_target`, atelier-core/src/builder/shapes.rs:781-787. -/
def withTarget (name : Str) (target : ShapeName) : Except Err MemberBuilder := do
  return ⟨← unwrap (Identifier.fromStr name), [], target⟩

/-- `MemberBuilder::blob`, ..., `timestamp`, atelier-core/src/builder/shapes.rs:811-874, with `new_unchecked` (789-799). -/
def simple (k : Simple) (name : Str) : Except Err MemberBuilder := do
  return ⟨← unwrap (Identifier.fromStr name), [], .qualified ⟨preludeNs, k.preludeName, none⟩⟩

end MemberBuilder

/-! ### Structures and unions -/

/-- The methods of `StructureBuilder` that add members, atelier-core/src/builder/shapes.rs:403-478. -/
inductive StructCall where
  | member (name target : Str)
  | addMember (m : MemberBuilder)
  | simple (k : Simple) (name : Str)

namespace StructureBuilder

/-- `StructureBuilder::add_member`, atelier-core/src/builder/shapes.rs:410-413. -/
def addMember (ms : List MemberBuilder) (m : MemberBuilder) : List MemberBuilder := ms ++ [m]

/-- `StructureBuilder::member`, atelier-core/src/builder/shapes.rs:404-407. -/
def member (ms : List MemberBuilder) (name target : Str) : Except Err (List MemberBuilder) := do
  return addMember ms (← MemberBuilder.new name target)

/-- Calling a method, atelier-core/src/builder/shapes.rs:403-478. -/
def call (ms : List MemberBuilder) : StructCall → Except Err (List MemberBuilder)
  | .member n t => member ms n t
  | .addMember m => .ok (addMember ms m)
  | .simple k n => member ms n k.preludeName

/-- `StructureBuilder::new` (395-401) and the calls: the members of the builder. -/
def members (calls : List StructCall) : Except Err (List MemberBuilder) := eachArg call [] calls

end StructureBuilder

/-! ### Services -/

/-- The methods of `ServiceBuilder`, atelier-core/src/builder/shapes.rs:505-546. -/
inductive ServiceCall where
  | version (v : Str)
  | operation (s : Str)
  | operations (ss : List Str)
  | resource (s : Str)
  | resources (ss : List Str)
  | rename (id name : Str)

/-- The fields of `ServiceBuilder` other than the name and the traits, atelier-core/src/builder/shapes.rs:115-123. -/
structure ServiceFields where
  version : Str
  operations : List ShapeName
  resources : List ShapeName
  renames : AMap ShapeID Str

namespace ServiceFields

/-- The builder with these fields. -/
def body (f : ServiceFields) : BuilderBody := .service f.version f.operations f.resources f.renames

/-- `ServiceBuilder::operation`, atelier-core/src/builder/shapes.rs:512-515. -/
def operation (f : ServiceFields) (s : Str) : Except Err ServiceFields := do
  return { f with operations := f.operations ++ [← nameArg s] }

/-- `ServiceBuilder::resource`, atelier-core/src/builder/shapes.rs:526-529. -/
def resource (f : ServiceFields) (s : Str) : Except Err ServiceFields := do
  return { f with resources := f.resources ++ [← nameArg s] }

/-- Calling a method, atelier-core/src/builder/shapes.rs:505-546. -/
def call (f : ServiceFields) : ServiceCall → Except Err ServiceFields
  | .version v => .ok { f with version := v }
  | .operation s => f.operation s
  | .operations ss => eachArg operation f ss
  | .resource s => f.resource s
  | .resources ss => eachArg resource f ss
  | .rename id name => do
    let id ← unwrap (ShapeID.fromStr id)
    let name ← unwrap (Identifier.fromStr name)
    return { f with renames := AMap.insert f.renames id name }

/-- `ServiceBuilder::new` (494-503) and the calls. -/
def run (version : Str) (calls : List ServiceCall) : Except Err ServiceFields := eachArg call ⟨version, [], [], []⟩ calls

end ServiceFields

/-! ### Operations -/

/-- The methods of `OperationBuilder`, atelier-core/src/builder/shapes.rs:578-602. -/
inductive OperationCall where
  | input (s : Str)
  | output (s : Str)
  | error (s : Str)
  | errors (ss : List Str)

/-- The fields of `OperationBuilder` other than the name and the traits, atelier-core/src/builder/shapes.rs:126-133. -/
structure OperationFields where
  input : Option ShapeName
  output : Option ShapeName
  errors : List ShapeName

namespace OperationFields

/-- The builder with these fields. -/
def body (f : OperationFields) : BuilderBody := .operation f.input f.output f.errors

/-- `OperationBuilder::error`, atelier-core/src/builder/shapes.rs:591-594. -/
def error (f : OperationFields) (s : Str) : Except Err OperationFields := do
  return { f with errors := f.errors ++ [← nameArg s] }

/-- Calling a method, atelier-core/src/builder/shapes.rs:578-602. -/
def call (f : OperationFields) : OperationCall → Except Err OperationFields
  | .input s => do return { f with input := some (← nameArg s) }
  | .output s => do return { f with output := some (← nameArg s) }
  | .error s => f.error s
  | .errors ss => eachArg error f ss

/-- `OperationBuilder::new` (568-576) and the calls. -/
def run (calls : List OperationCall) : Except Err OperationFields := eachArg call ⟨none, none, []⟩ calls

end OperationFields

/-! ### Resources -/

/-- The methods of `ResourceBuilder`, atelier-core/src/builder/shapes.rs:643-730. -/
inductive ResourceCall where
  | identifier (name s : Str)
  | create (s : Str)
  | put (s : Str)
  | read (s : Str)
  | update (s : Str)
  | delete (s : Str)
  | list (s : Str)
  | operation (s : Str)
  | operations (ss : List Str)
  | collectionOperation (s : Str)
  | collectionOperations (ss : List Str)
  | resource (s : Str)
  | resources (ss : List Str)

namespace ResourceFields

/-- `ResourceBuilder::operation`, atelier-core/src/builder/shapes.rs:690-693. -/
def operation (f : ResourceFields) (s : Str) : Except Err ResourceFields := do
  return { f with operations := f.operations ++ [← nameArg s] }

/-- `ResourceBuilder::collection_operation`, atelier-core/src/builder/shapes.rs:704-708. -/
def collectionOperation (f : ResourceFields) (s : Str) : Except Err ResourceFields := do
  return { f with collectionOperations := f.collectionOperations ++ [← nameArg s] }

/-- `ResourceBuilder::resource`, atelier-core/src/builder/shapes.rs:719-722. -/
def resource (f : ResourceFields) (s : Str) : Except Err ResourceFields := do
  return { f with resources := f.resources ++ [← nameArg s] }

/-- Calling a method, atelier-core/src/builder/shapes.rs:643-730. -/
def call (f : ResourceFields) : ResourceCall → Except Err ResourceFields
  | .identifier n s => do
    let n ← unwrap (Identifier.fromStr n)
    let s ← nameArg s
    return { f with identifiers := AMap.insert f.identifiers n s }
  | .create s => do return { f with create := some (← nameArg s) }
  | .put s => do return { f with put := some (← nameArg s) }
  | .read s => do return { f with read := some (← nameArg s) }
  | .update s => do return { f with update := some (← nameArg s) }
  | .delete s => do return { f with delete := some (← nameArg s) }
  | .list s => do return { f with list := some (← nameArg s) }
  | .operation s => f.operation s
  | .operations ss => eachArg operation f ss
  | .collectionOperation s => f.collectionOperation s
  | .collectionOperations ss => eachArg collectionOperation f ss
  | .resource s => f.resource s
  | .resources ss => eachArg resource f ss

/-- `ResourceBuilder::new` (626-641) and the calls. -/
def run (calls : List ResourceCall) : Except Err ResourceFields :=
  eachArg call ⟨[], none, none, none, none, none, none, [], [], []⟩ calls

end ResourceFields
end Verif
