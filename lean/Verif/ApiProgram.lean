/-
Model of programs that use the builder API of atelier-core/src/builder: constructing traits, members and shapes, adding them to
a model builder, and building the model.
-/
import Verif.ShapeBuilders

namespace Verif.Api

/-- `x.push(..)` for each element: the traits and the members of a builder, atelier-core/src/builder/shapes.rs:63-72. -/
def collect {A B : Type} (f : A → Except Err B) (as : List A) : Except Err (List B) :=
  eachArg (fun bs a => do return bs ++ [← f a]) [] as

/-! ### Traits -/

/-- Where a `TraitBuilder` comes from, atelier-core/src/builder/traits.rs:47-298. -/
inductive TraitStart where
  | new (id : Str)
  | annotation (id : Str)
  | withValue (id : Str) (v : Value)
  | prelude (f : TraitFn)

/-- A trait builder: a constructor and setters, atelier-core/src/builder/traits.rs:276-347. -/
structure TraitProgram where
  start : TraitStart
  setters : List TraitBuilder.Setter

namespace TraitProgram

/-- The constructors, atelier-core/src/builder/traits.rs:47-298. -/
def begin : TraitStart → Except Err TraitBuilder
  | .new id => TraitBuilder.new id
  | .annotation id => TraitBuilder.annotation id
  | .withValue id v => TraitBuilder.withValue id v
  | .prelude f => f.run

/-- The trait builder after its setters. -/
def run (p : TraitProgram) : Except Err TraitBuilder := do
  return p.setters.foldl TraitBuilder.set (← begin p.start)

end TraitProgram

/-! ### Members -/

/-- Where a `MemberBuilder` comes from, atelier-core/src/builder/shapes.rs:773-874. `with_target` is `new` with a name already
parsed. -/
inductive MemberStart where
  | new (name target : Str)
  | simple (k : Simple) (name : Str)

/-- A member builder: a constructor and `apply_trait`s, atelier-core/src/builder/shapes.rs:63-72, 773-874. -/
structure MemberProgram where
  start : MemberStart
  traits : List TraitProgram

namespace MemberProgram

/-- The constructors, atelier-core/src/builder/shapes.rs:773-874. -/
def begin : MemberStart → Except Err MemberBuilder
  | .new n t => MemberBuilder.new n t
  | .simple k n => MemberBuilder.simple k n

/-- The member builder after its traits have been applied. -/
def run (p : MemberProgram) : Except Err MemberBuilder := do
  let m ← begin p.start
  let ts ← collect TraitProgram.run p.traits
  return { m with traits := m.traits ++ ts }

end MemberProgram

/-! ### Shapes -/

/-- The methods of `StructureBuilder` that add members, atelier-core/src/builder/shapes.rs:403-478. -/
inductive StructStep where
  | member (name target : Str)
  | addMember (m : MemberProgram)
  | simple (k : Simple) (name : Str)

/-- The call, once its argument has been evaluated. -/
def StructStep.run : StructStep → Except Err StructCall
  | .member n t => .ok (.member n t)
  | .addMember m => do return .addMember (← m.run)
  | .simple k n => .ok (.simple k n)

/-- A shape builder: the constructor, and the methods other than those that apply traits. The methods `target` of `ListBuilder`
(shapes.rs:348-350), `key` and `value` of `MapBuilder` (377-384) each replace the member. -/
inductive BodyProgram where
  | simple (k : Simple)
  | list (target : Str) (members : List MemberProgram)
  | set (target : Str) (members : List MemberProgram)
  | map (key value : Str) (keys values : List MemberProgram)
  | struct (steps : List StructStep)
  | union (steps : List StructStep)
  | service (version : Str) (calls : List ServiceCall)
  | operation (calls : List OperationCall)
  | resource (calls : List ResourceCall)

/-- A member builder and the ones that replace it: the last is kept, atelier-core/src/builder/shapes.rs:348-350, 377-384. -/
def replaced (m : MemberBuilder) (ms : List MemberProgram) : Except Err MemberBuilder := do
  let ms ← collect MemberProgram.run ms
  return ms.foldl (fun _ m => m) m

namespace BodyProgram

/-- `ListBuilder::new`, atelier-core/src/builder/shapes.rs:330-336, and `target`. -/
def listMember (target : Str) (ms : List MemberProgram) : Except Err MemberBuilder := do
  replaced (← MemberBuilder.new memberMember target) ms

/-- `StructureBuilder::new` and the methods that add members. -/
def structMembers (steps : List StructStep) : Except Err (List MemberBuilder) := do
  StructureBuilder.members (← collect StructStep.run steps)

/-- The constructors and methods of the shape builders, atelier-core/src/builder/shapes.rs:238-730. -/
def run : BodyProgram → Except Err BuilderBody
  | .simple k => .ok (.simple k)
  | .list t ms => do return .list (← listMember t ms)
  | .set t ms => do return .set (← listMember t ms)
  | .map k v ks vs => do
    let k ← MemberBuilder.new memberKey k
    let v ← MemberBuilder.new memberValue v
    let k ← replaced k ks
    let v ← replaced v vs
    return .map k v
  | .struct steps => do return .struct (← structMembers steps)
  | .union steps => do return .union (← structMembers steps)
  | .service v cs => do return (← ServiceFields.run v cs).body
  | .operation cs => do return (← OperationFields.run cs).body
  | .resource cs => do
    let f ← ResourceFields.run cs
    return .resource f.identifiers f.create f.put f.read f.update f.delete f.list f.operations f.collectionOperations f.resources

end BodyProgram

/-- A shape builder with its name and its traits. -/
structure ShapeProgram where
  name : Str
  body : BodyProgram
  traits : List TraitProgram

/-- The shape builder: `new` parses the name, e.g. atelier-core/src/builder/shapes.rs:240-246; then the other methods. -/
def ShapeProgram.run (p : ShapeProgram) : Except Err Builder := do
  let n ← nameArg p.name
  let body ← p.body.run
  let ts ← collect TraitProgram.run p.traits
  return ⟨n, ts, body⟩

/-! ### Models -/

/-- The methods of `ModelBuilder`, atelier-core/src/builder/mod.rs:124-213. -/
inductive Call where
  | shape (p : ShapeProgram)
  | uses (s : Str)
  | reference (s : Str) (traits : List TraitProgram)
  | apply (s : Str) (t : TraitProgram)
  | metaData (k : Str) (v : Value)
  | metaDataFrom (m : AMap Str Value)

/-- `ModelBuilder::meta_data_from`, atelier-core/src/builder/mod.rs:206-211. -/
def metaDataFrom (mb : ModelBuilder) : List (Str × Value) → ModelBuilder
  | [] => mb
  | (k, v) :: m => metaDataFrom (mb.metaData k v) m

/-- `ReferenceBuilder::new` (atelier-core/src/builder/shapes.rs:758-762) and its traits. -/
def reference (s : Str) (traits : List TraitProgram) : Except Err Builder := do
  let id ← unwrap (ShapeID.fromStr s)
  let ts ← collect TraitProgram.run traits
  return ⟨.qualified id, ts, .reference⟩

/-- Calling a method of `ModelBuilder`, atelier-core/src/builder/mod.rs:124-213. -/
def call (mb : ModelBuilder) : Call → Except Err ModelBuilder
  | .shape p => do return mb.insert (← p.run)
  | .uses s => mb.uses s
  | .reference s ts => do return mb.insert (← reference s ts)
  | .apply s t => do mb.apply s (← t.run)
  | .metaData k v => .ok (mb.metaData k v)
  | .metaDataFrom m => .ok (metaDataFrom mb m)

/-- `ModelBuilder::new` (atelier-core/src/builder/mod.rs:104-113) and the calls. -/
def run (v : Version) (ns : Str) (calls : List Call) : Except Err ModelBuilder := do
  eachArg call (← ModelBuilder.new v ns) calls

end Verif.Api
