/-
Model of atelier-core/src/model/visitor.rs.
-/
import Verif.Model

namespace Verif

/-- A call of a visitor: it may change the visitor's state (interior mutability, as all methods take `&self`) and
returns `Result<(), Self::Error>`. -/
abbrev Step (σ ε : Type) := σ → σ × Except ε Unit

/-- `a?; b`. -/
def Step.andThen {σ ε : Type} (a b : Step σ ε) : Step σ ε := fun s =>
  match a s with
  | (s', .ok ()) => b s'
  | (s', .error e) => (s', .error e)

/-- `for x in xs { f(x)?; }`. -/
def Step.forEach {σ ε α : Type} (f : α → Step σ ε) : List α → Step σ ε
  | [], s => (s, .ok ())
  | x :: xs, s =>
    match f x s with
    | (s', .ok ()) => forEach f xs s'
    | (s', .error e) => (s', .error e)

/-- `if let Some(x) = o { f(x)?; }`. -/
def Step.ifSome {σ ε α : Type} (f : α → Step σ ε) : Option α → Step σ ε
  | none, s => (s, .ok ())
  | some x, s => f x s

/-- The method of `MemberVisitor`, atelier-core/src/model/visitor.rs:116-132: parent, member name, target, traits. -/
abbrev MemberVisitor (σ ε : Type) := ShapeID → Str → ShapeID → Option Traits → Step σ ε

/-- `ModelVisitor`, atelier-core/src/model/visitor.rs:75-100: one function per method. `memberVisitor` may look at the
state but is taken not to change it. -/
structure ModelVisitor (σ ε : Type) where
  metadata : Str → Value → Step σ ε
  simpleShape : ShapeID → Traits → Simple → Step σ ε
  list : ShapeID → Traits → MemberShape → Step σ ε
  set : ShapeID → Traits → MemberShape → Step σ ε
  map : ShapeID → Traits → MemberShape × MemberShape → Step σ ε
  structure_ : ShapeID → Traits → AMap Str MemberShape → Step σ ε
  union : ShapeID → Traits → AMap Str MemberShape → Step σ ε
  service : ShapeID → Traits → Service → Step σ ε
  operation : ShapeID → Traits → Operation → Step σ ε
  resource : ShapeID → Traits → Resource → Step σ ε
  unresolvedId : ShapeID → Traits → Step σ ε
  memberVisitor : σ → Option (MemberVisitor σ ε)

namespace Visitor
variable {σ ε : Type}

/-- The block `if let Some(member_visitor) = visitor.member_visitor() { .. }`, e.g. visitor.rs:156-163. -/
def withMembers (v : ModelVisitor σ ε) (f : MemberVisitor σ ε → Step σ ε) : Step σ ε := fun s =>
  match v.memberVisitor s with
  | some mv => f mv s
  | none => (s, .ok ())

/-- `member_visitor.member(shape.id(), member.id(), member.target(), Some(member.traits()))`, e.g. visitor.rs:157-162. -/
def visitMember (mv : MemberVisitor σ ε) (id : ShapeID) (m : MemberShape) : Step σ ε := mv id m.id m.target (some m.traits)

/-- `member_visitor.member(shape.id(), &Identifier::new_unchecked(name), target, None)`, e.g. visitor.rs:223-228. -/
def visitTarget (mv : MemberVisitor σ ε) (id : ShapeID) (name : Str) (target : ShapeID) : Step σ ε := mv id name target none

/-- The body of the loop over the shapes, atelier-core/src/model/visitor.rs:152-347. -/
def walkShape (v : ModelVisitor σ ε) (shape : TopLevelShape) : Step σ ε :=
  match shape.body with
  | .simple body => v.simpleShape shape.id shape.traits body
  | .list body => (v.list shape.id shape.traits body).andThen (withMembers v fun mv => visitMember mv shape.id body)
  | .set body => (v.set shape.id shape.traits body).andThen (withMembers v fun mv => visitMember mv shape.id body)
  | .map key value => (v.map shape.id shape.traits (key, value)).andThen (withMembers v fun mv =>
      (visitMember mv shape.id key).andThen (visitMember mv shape.id value))
  | .struct ms => (v.structure_ shape.id shape.traits ms).andThen (withMembers v fun mv =>
      Step.forEach (visitMember mv shape.id) (AMap.values ms))
  | .union ms => (v.union shape.id shape.traits ms).andThen (withMembers v fun mv =>
      Step.forEach (visitMember mv shape.id) (AMap.values ms))
  | .service body => (v.service shape.id shape.traits body).andThen (withMembers v fun mv =>
      (Step.forEach (visitTarget mv shape.id %s"operations") body.operations).andThen
      (Step.forEach (visitTarget mv shape.id %s"resources") body.resources))
  | .operation body => (v.operation shape.id shape.traits body).andThen (withMembers v fun mv =>
      (Step.ifSome (visitTarget mv shape.id %s"input") body.input).andThen <|
      (Step.ifSome (visitTarget mv shape.id %s"output") body.output).andThen
      (Step.forEach (visitTarget mv shape.id %s"errors") body.errors))
  | .resource body => (v.resource shape.id shape.traits body).andThen (withMembers v fun mv =>
      (Step.ifSome (visitTarget mv shape.id %s"create") body.create).andThen <|
      (Step.ifSome (visitTarget mv shape.id %s"put") body.put).andThen <|
      (Step.ifSome (visitTarget mv shape.id %s"read") body.read).andThen <|
      (Step.ifSome (visitTarget mv shape.id %s"update") body.update).andThen <|
      (Step.ifSome (visitTarget mv shape.id %s"delete") body.delete).andThen <|
      (Step.ifSome (visitTarget mv shape.id %s"list") body.list).andThen <|
      (Step.forEach (visitTarget mv shape.id %s"operations") body.operations).andThen <|
      (Step.forEach (visitTarget mv shape.id %s"collectionOperations") body.collectionOperations).andThen
      (Step.forEach (visitTarget mv shape.id %s"resources") body.resources))
  | .unresolved => v.unresolvedId shape.id shape.traits

/-- `walk_model`, atelier-core/src/model/visitor.rs:143-351. -/
def walkModel (m : Model) (v : ModelVisitor σ ε) : Step σ ε :=
  (Step.forEach (fun (e : Str × Value) => v.metadata e.1 e.2) m.metadata).andThen
  (Step.forEach (walkShape v) m.shapesList)

end Visitor
end Verif
