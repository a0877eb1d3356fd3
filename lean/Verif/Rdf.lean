/-
Model of atelier-rdf/src/{vocabulary,writer,reader}.rs: RDF graphs of semantic models.

The external crates `rdftk_core`, `rdftk_iri`, `rdftk_memory` (graphs, nodes, literals) and `rdftk_io` (the Turtle text) are
not modelled: a graph is the list of the statements inserted in it, only read through membership.
-/
import Verif.Urn
import Verif.Visitor
import Verif.Lines

namespace Verif
namespace Rdf

/-- `SubjectNode` of `rdftk_core`: an IRI, or a blank node (identified by the number drawn when it was created). -/
inductive Node where
  | iri (i : Iri)
  | blank (n : Nat)
  deriving DecidableEq, Repr

/-- `Literal` of `rdftk_core`, by the factory functions used (`literal`, `long`, `double`, `boolean`): value and data type
rather than lexical form and data type. -/
inductive Lit where
  | plain (s : Str)
  | long (n : Int)
  | double (x : F64)
  | boolean (b : Bool)
  deriving DecidableEq, Repr

/-- `ObjectNode` of `rdftk_core`. -/
inductive Obj where
  | node (n : Node)
  | lit (l : Lit)
  deriving DecidableEq, Repr

/-- `Statement` of `rdftk_core`. -/
structure Statement where
  subj : Node
  pred : Iri
  obj : Obj
  deriving DecidableEq, Repr

/-- `Graph` of `rdftk_core` (prefix mappings only affect the text written). -/
abbrev Graph := List Statement

/-! ### Vocabulary -/

/-- The namespace of atelier-rdf/src/vocabulary.rs:12-14. -/
def smithyNs : Str := %s"https://awslabs.github.io/smithy/rdf-1.0#"

/-- A term of the vocabulary (the macro `namespace!` of `rdftk_names`: the namespace followed by the name). -/
def smithy (name : Str) : Iri := Iri.ofText (smithyNs ++ name)

/-- `rdf::namespace_iri()` of `rdftk_names`. -/
def rdfNs : Str := %s"http://www.w3.org/1999/02/22-rdf-syntax-ns#"

/-- A term of the RDF vocabulary of `rdftk_names`. -/
def rdf (name : Str) : Iri := Iri.ofText (rdfNs ++ name)

/-- `rdf::a_type()`. -/
def aType : Iri := rdf %s"type"

/-- The class of a simple shape: the `match` at atelier-rdf/src/writer.rs:242-256, names at vocabulary.rs:24-36. -/
def simpleName : Simple → Str
  | .blob => %s"Blob"
  | .boolean => %s"Boolean"
  | .document => %s"Document"
  | .string => %s"String"
  | .byte => %s"Byte"
  | .short => %s"Short"
  | .integer => %s"Integer"
  | .long => %s"Long"
  | .float => %s"Float"
  | .double => %s"Double"
  | .bigInteger => %s"BigInteger"
  | .bigDecimal => %s"BigDecimal"
  | .timestamp => %s"Timestamp"

/-! ### Writing -/

/-- Insertions in a graph: from the number of the next blank node to the statements inserted, in order, and the number of
the next blank node. Simplification: the code inserts in a shared graph as it goes, and never looks at it. -/
abbrev Emit := Nat → List Statement × Nat

/-- No insertion. -/
def Emit.skip : Emit := fun n => ([], n)

/-- `graph.insert(statement_factory.statement(subject, predicate, object).unwrap())`. -/
def Emit.insert (s : Node) (p : Iri) (o : Obj) : Emit := fun n => ([⟨s, p, o⟩], n)

/-- `a; b`. -/
def Emit.seq (a b : Emit) : Emit := fun n => ((a n).1 ++ (b (a n).2).1, (b (a n).2).2)

@[inherit_doc] scoped infixr:60 " ;; " => Emit.seq

/-- `let b = graph.statement_factory().blank_subject(); ..`. -/
def Emit.fresh (f : Node → Emit) : Emit := fun n => f (.blank n) (n + 1)

/-- `for x in xs { .. }`. -/
def Emit.each {α : Type} (f : α → Emit) : List α → Emit
  | [] => .skip
  | x :: xs => f x ;; each f xs

/-- `if let Some(x) = o { .. }`. -/
def Emit.ifSome {α : Type} (f : α → Emit) : Option α → Emit
  | none => .skip
  | some x => f x

open Emit

/-- `statement_factory.named_object(..)`. -/
def named (i : Iri) : Obj := .node (.iri i)

/-- `statement_factory.literal_object(literal_factory.literal(..))`. -/
def text (s : Str) : Obj := .lit (.plain s)

mutual
  /-- `from_value`, atelier-rdf/src/writer.rs:764-899. -/
  def fromValue (s : Node) (p : Iri) : Value → Emit
    | .string v => insert s p (text v)
    | .number (.integer v) => insert s p (.lit (.long v))
    | .number (.float v) => insert s p (.lit (.double v))
    | .boolean v => insert s p (.lit (.boolean v))
    | .array vs => fresh fun b => insert s p (.node b) ;; insert b aType (named (rdf %s"List")) ;; fromItems b vs
    | .object es => fresh fun b => insert s p (.node b) ;; insert b aType (named (rdf %s"Bag")) ;; fromEntries b es
    | .none => insert s p (named (rdf %s"nil"))
  /-- The loop at atelier-rdf/src/writer.rs:839-841. -/
  def fromItems (b : Node) : List Value → Emit
    | [] => skip
    | v :: vs => fromValue b (rdf %s"li") v ;; fromItems b vs
  /-- The loop at atelier-rdf/src/writer.rs:863-884. -/
  def fromEntries (b : Node) : List (Str × Value) → Emit
    | [] => skip
    | (k, v) :: es =>
      (fresh fun kv => insert b (rdf %s"li") (.node kv) ;; insert kv (smithy %s"key") (text k) ;;
        fromValue kv (smithy %s"value") v) ;; fromEntries b es
end

/-- The body of the loop of `from_traits`, atelier-rdf/src/writer.rs:733-759. -/
def fromTrait (parent : Node) (e : ShapeID × TraitValue) : Emit :=
  fresh fun t => insert parent (smithy %s"apply") (.node t) ;; insert t (smithy %s"trait") (named (shapeToIri e.1)) ;;
    ifSome (fromValue t (smithy %s"value")) e.2

/-- `from_traits`, atelier-rdf/src/writer.rs:726-762. -/
def fromTraits (parent : Node) (ts : Traits) : Emit := each (fromTrait parent) ts

/-- `from_member`, atelier-rdf/src/writer.rs:688-724. -/
def fromMember (subject : Node) (m : MemberShape) : Emit :=
  fresh fun b => insert subject (smithy %s"member") (.node b) ;; insert b (smithy %s"name") (text m.id) ;;
    insert b aType (named (shapeToIri m.target)) ;; fromTraits b m.traits

/-- `add_shape`, atelier-rdf/src/writer.rs:675-686. -/
def addShape (root subject : Node) : Emit :=
  match subject with
  | .iri i => insert root (smithy %s"shape") (named i)
  | .blank _ => skip

/-- `for x in xs { graph.insert(subject, p, shape_to_iri(x)) }`, e.g. atelier-rdf/src/writer.rs:409-419; also used for the
optional targets (`if let Some(x) = ..`), e.g. 453-463. -/
def targets (subject : Node) (p : Iri) (xs : List ShapeID) : Emit := each (fun x => insert subject p (named (shapeToIri x))) xs

/-- The body of the loop over the identifiers of a resource, atelier-rdf/src/writer.rs:530-561: the position (from 0), the
name and the target. -/
def fromIdentifier (bag : Node) (e : Nat × (Str × ShapeID)) : Emit :=
  fresh fun pair => insert bag (rdf (%s"_" ++ showNat (e.1 + 1))) (.node pair) ;; insert pair (smithy %s"key") (text e.2.1) ;;
    insert pair (smithy %s"value") (named (shapeToIri e.2.2))

/-- `Iterator::enumerate`. -/
def enumerate {α : Type} (l : List α) : List (Nat × α) := (List.range l.length).zip l

/-- The identifiers of a resource, atelier-rdf/src/writer.rs:509-563. -/
def fromIdentifiers (subject : Node) (ids : AMap Str ShapeID) : Emit :=
  if ids.isEmpty then skip
  else fresh fun bag => insert subject (smithy %s"identifiers") (.node bag) ;; insert bag aType (named (rdf %s"Bag")) ;;
    each (fromIdentifier bag) (enumerate ids)

/-- What every method for a shape begins with: `add_shape`, and the class of the shape, e.g. atelier-rdf/src/writer.rs:232-261. -/
def declare (root : Node) (id : ShapeID) (cls : Str) : Emit :=
  addShape root (.iri (shapeToIri id)) ;; insert (.iri (shapeToIri id)) aType (named (smithy cls))

/-- The state of the visitor: the graph, and the number of the next blank node. -/
abbrev State := Graph × Nat

/-- A method of the visitor that makes these insertions and returns `Ok(())`. -/
def method (e : Emit) : Step State Err := fun (g, n) => ((g ++ (e n).1, (e n).2), .ok ())

/-- `impl ModelVisitor for RdfModelVisitor`, atelier-rdf/src/writer.rs:219-669. -/
def visitor (root : Node) : ModelVisitor State Err where
  metadata _ _ := method skip
  simpleShape id ts s :=
    let n := Node.iri (shapeToIri id)
    method (declare root id (simpleName s) ;; fromTraits n ts)
  list id ts m :=
    let n := Node.iri (shapeToIri id)
    method (declare root id %s"List" ;; fromMember n m ;; fromTraits n ts)
  set id ts m :=
    let n := Node.iri (shapeToIri id)
    method (declare root id %s"Set" ;; fromMember n m ;; fromTraits n ts)
  map id ts m :=
    let n := Node.iri (shapeToIri id)
    method (declare root id %s"Map" ;; fromMember n m.1 ;; fromMember n m.2 ;; fromTraits n ts)
  structure_ id ts ms :=
    let n := Node.iri (shapeToIri id)
    method (declare root id %s"Structure" ;; each (fromMember n) (AMap.values ms) ;; fromTraits n ts)
  union id ts ms :=
    let n := Node.iri (shapeToIri id)
    method (declare root id %s"Union" ;; each (fromMember n) (AMap.values ms) ;; fromTraits n ts)
  service id ts s :=
    let n := Node.iri (shapeToIri id)
    method (declare root id %s"Service" ;; insert n (smithy %s"version") (text s.version) ;;
      targets n (smithy %s"operation") s.operations ;; targets n (smithy %s"resource") s.resources ;; fromTraits n ts)
  operation id ts o :=
    let n := Node.iri (shapeToIri id)
    method (declare root id %s"Operation" ;; targets n (smithy %s"input") o.input.toList ;;
      targets n (smithy %s"output") o.output.toList ;; targets n (smithy %s"error") o.errors ;; fromTraits n ts)
  resource id ts r :=
    let n := Node.iri (shapeToIri id)
    method (declare root id %s"Resource" ;; fromIdentifiers n r.identifiers ;;
      targets n (smithy %s"create") r.create.toList ;; targets n (smithy %s"put") r.put.toList ;;
      targets n (smithy %s"update") r.update.toList ;; targets n (smithy %s"delete") r.delete.toList ;;
      targets n (smithy %s"read") r.read.toList ;; targets n (smithy %s"list") r.list.toList ;;
      targets n (smithy %s"operation") r.operations ;; targets n (smithy %s"collectionOperation") r.collectionOperations ;;
      targets n (smithy %s"resource") r.resources ;; fromTraits n ts)
  unresolvedId _ _ := method skip
  memberVisitor _ := none

/-- `model_to_rdf`, atelier-rdf/src/writer.rs:121-178 (the subject of the model is the first blank node when no IRI is
given). -/
def modelToRdf (m : Model) (modelIri : Option Iri) : Except Err Graph :=
  let (root, n) : Node × Nat := match modelIri with | none => (.blank 0, 1) | some i => (.iri i, 0)
  let g : Graph := [⟨root, smithy %s"smithy_version", text m.version.display⟩, ⟨root, aType, named (smithy %s"Model")⟩]
  match Visitor.walkModel m (visitor root) (g, n) with
  | ((g', _), .ok ()) => .ok g'
  | (_, .error e) => .error e

/-! ### Reading -/

/-- `rdf_model_subject`, atelier-rdf/src/reader.rs:122-157. -/
def modelSubject (g : Graph) (modelIri : Option Iri) : Except Err Node :=
  match modelIri with
  | some i =>
    if g.any (fun st => decide (st = ⟨.iri i, aType, named (smithy %s"Model")⟩)) then .ok (.iri i)
    else .error (.deserialization %s"RDF" %s"model" none)
  | none =>
    match ((g.filter fun st => decide (st.pred = aType ∧ st.obj = named (smithy %s"Model"))).map (·.subj)).eraseDups with
    | [s] => .ok s
    | _ => .error (.deserialization %s"RDF" %s"model" none)

/-- `Graph::objects_for` of `rdftk_core` (a `HashSet`: here without duplicates). -/
def objectsFor (g : Graph) (s : Node) (p : Iri) : List Obj :=
  ((g.filter fun st => decide (st.subj = s ∧ st.pred = p)).map (·.obj)).eraseDups

/-- `Literal::lexical_form` of `rdftk_core`; only used on plain literals. -/
def Lit.lexical : Lit → Str
  | .plain s => s
  | .long n => showInt n
  | .double _ => []
  | .boolean b => if b then %s"true" else %s"false"

/-- `rdf_literal_string`, atelier-rdf/src/reader.rs:84-120, without a data type. -/
def literalString (g : Graph) (s : Node) (p : Iri) (name : Str) : Except Err Str :=
  match objectsFor g s p with
  | [.lit l] => .ok l.lexical
  | [.node _] => .error (.deserialization %s"RDF" name (some %s"as_literal"))
  | _ => .error (.deserialization %s"RDF" name (some %s"len"))

/-- `rdf_to_model`, atelier-rdf/src/reader.rs:51-68; `rdf_to_shape` (159-174) is `unimplemented!()`. -/
def rdfToModel (g : Graph) (modelIri : Option Iri) : Except Err Model := do
  let subject ← modelSubject g modelIri
  let versionString ← literalString g subject (smithy %s"smithy_version") %s"version"
  let version ← Version.fromStr versionString
  match objectsFor g subject (smithy %s"shape") with
  | [] => .ok (Model.new version)
  | _ :: _ => .error .panic

end Rdf
end Verif
