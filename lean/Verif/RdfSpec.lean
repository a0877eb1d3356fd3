/-
What it means for an RDF graph to describe a semantic model, independently of how the writer proceeds; and when two models
have the same content for RDF (graphs are sets of statements).
-/
import Verif.Rdf
import Verif.JsonSpec
import Mathlib.Data.List.Forall2

namespace Verif.Spec
open Rdf (Node Obj Lit Statement Graph)

/-! ### The vocabularies -/

/-- `https://awslabs.github.io/smithy/rdf-1.0#<name>`. -/
def smithyTerm (name : Str) : Iri := ⟨some %s"https", some %s"awslabs.github.io", %s"/smithy/rdf-1.0", none, some name⟩

/-- `http://www.w3.org/1999/02/22-rdf-syntax-ns#<name>`. -/
def rdfTerm (name : Str) : Iri := ⟨some %s"http", some %s"www.w3.org", %s"/1999/02/22-rdf-syntax-ns", none, some name⟩

/-- A named resource, as the object of a statement. -/
def res (i : Iri) : Obj := .node (.iri i)

/-- A string literal, as the object of a statement. -/
def str (s : Str) : Obj := .lit (.plain s)

/-! ### Descriptions -/

/-- The statements of the graph about the node are exactly these (predicate and object). -/
def About (g : Graph) (n : Node) (l : List (Iri × Obj)) : Prop := ∀ p o, ⟨n, p, o⟩ ∈ g ↔ (p, o) ∈ l

mutual
  /-- The object describes the value: scalars are typed literals, `null` is `rdf:nil`, an array is a node of type `rdf:List`
  with an `rdf:li` per element, an object is a node of type `rdf:Bag` with an `rdf:li` per entry. -/
  inductive ValueAt (g : Graph) : Obj → Value → Prop
    | string (s : Str) : ValueAt g (.lit (.plain s)) (.string s)
    | integer (n : Int) : ValueAt g (.lit (.long n)) (.number (.integer n))
    | float (x : F64) : ValueAt g (.lit (.double x)) (.number (.float x))
    | boolean (b : Bool) : ValueAt g (.lit (.boolean b)) (.boolean b)
    | null : ValueAt g (res (rdfTerm %s"nil")) .none
    | array {b : Nat} {os : List Obj} {vs : List Value} : ValuesAt g os vs →
        About g (.blank b) ((rdfTerm %s"type", res (rdfTerm %s"List")) :: os.map (Prod.mk (rdfTerm %s"li"))) →
        ValueAt g (.node (.blank b)) (.array vs)
    | object {b : Nat} {os : List Obj} {es : List (Str × Value)} : EntriesAt g os es →
        About g (.blank b) ((rdfTerm %s"type", res (rdfTerm %s"Bag")) :: os.map (Prod.mk (rdfTerm %s"li"))) →
        ValueAt g (.node (.blank b)) (.object es)
  /-- The objects describe the values, in order; every array and every object among them has a node of its own. -/
  inductive ValuesAt (g : Graph) : List Obj → List Value → Prop
    | nil : ValuesAt g [] []
    | cons {o os v vs} : ValueAt g o v → ValuesAt g os vs → (∀ b, o = .node (.blank b) → o ∉ os) → ValuesAt g (o :: os) (v :: vs)
  /-- The objects describe the entries, in order: each is a node with a `smithy:key` and a `smithy:value`. -/
  inductive EntriesAt (g : Graph) : List Obj → List (Str × Value) → Prop
    | nil : EntriesAt g [] []
    | cons {b o k v os es} : ValueAt g o v →
        About g (.blank b) [(smithyTerm %s"key", str k), (smithyTerm %s"value", o)] →
        EntriesAt g os es → EntriesAt g (.node (.blank b) :: os) ((k, v) :: es)
end

/-- The object describes the application of a trait: a node with a `smithy:trait`, and a `smithy:value` if the trait has
one. -/
def TraitAt (g : Graph) (o : Obj) (t : ShapeID × TraitValue) : Prop :=
  ∃ b x, o = .node (.blank b) ∧ OptRel (ValueAt g) x t.2 ∧
    About g (.blank b) ((smithyTerm %s"trait", res (shapeToIri t.1)) :: x.toList.map (Prod.mk (smithyTerm %s"value")))

/-- The object describes the member: a node with its name, its target as type, and its traits. -/
def MemberAt (g : Graph) (o : Obj) (m : MemberShape) : Prop :=
  ∃ b ts, o = .node (.blank b) ∧ List.Forall₂ (TraitAt g) ts m.traits ∧
    About g (.blank b) ((smithyTerm %s"name", str m.id) :: (rdfTerm %s"type", res (shapeToIri m.target)) ::
      ts.map (Prod.mk (smithyTerm %s"apply")))

/-- The object describes the identifier of a resource: a node with its name as key, and its target as value. -/
def IdentifierAt (g : Graph) (o : Obj) (e : Str × ShapeID) : Prop :=
  ∃ b, o = .node (.blank b) ∧
    About g (.blank b) [(smithyTerm %s"key", str e.1), (smithyTerm %s"value", res (shapeToIri e.2))]

/-- The objects (none or one) describe the identifiers of a resource: a node of type `rdf:Bag`, with the identifiers as
`rdf:_1`, `rdf:_2`, etc. -/
def IdentifiersAt (g : Graph) (os : List Obj) (ids : List (Str × ShapeID)) : Prop :=
  (ids = [] ∧ os = []) ∨
  (ids ≠ [] ∧ ∃ b ps, os = [.node (.blank b)] ∧ List.Forall₂ (IdentifierAt g) ps ids ∧
    About g (.blank b) ((rdfTerm %s"type", res (rdfTerm %s"Bag")) ::
      (ps.zipIdx 1).map fun (p, i) => (rdfTerm ('_' :: (toString i).toList), p)))

/-- The class of a shape. -/
def className : ShapeKind → Str
  | .simple .blob => %s"Blob"
  | .simple .boolean => %s"Boolean"
  | .simple .document => %s"Document"
  | .simple .string => %s"String"
  | .simple .byte => %s"Byte"
  | .simple .short => %s"Short"
  | .simple .integer => %s"Integer"
  | .simple .long => %s"Long"
  | .simple .float => %s"Float"
  | .simple .double => %s"Double"
  | .simple .bigInteger => %s"BigInteger"
  | .simple .bigDecimal => %s"BigDecimal"
  | .simple .timestamp => %s"Timestamp"
  | .list _ => %s"List"
  | .set _ => %s"Set"
  | .map _ _ => %s"Map"
  | .struct _ => %s"Structure"
  | .union _ => %s"Union"
  | .service _ => %s"Service"
  | .operation _ => %s"Operation"
  | .resource _ => %s"Resource"
  | .unresolved => []

/-- The members of a shape. -/
def membersOf : ShapeKind → List MemberShape
  | .list m | .set m => [m]
  | .map k v => [k, v]
  | .struct ms | .union ms => ms.map (·.2)
  | _ => []

/-- The identifiers of a resource. -/
def identifiersOf : ShapeKind → List (Str × ShapeID)
  | .resource r => r.identifiers
  | _ => []

/-- The literal properties of a shape. -/
def literalsOf : ShapeKind → List (Str × Str)
  | .service s => [(%s"version", s.version)]
  | _ => []

/-- The properties of a shape that name other shapes. -/
def referencesOf : ShapeKind → List (Str × ShapeID)
  | .service s => s.operations.map (Prod.mk %s"operation") ++ s.resources.map (Prod.mk %s"resource")
  | .operation o => o.input.toList.map (Prod.mk %s"input") ++ o.output.toList.map (Prod.mk %s"output") ++
      o.errors.map (Prod.mk %s"error")
  | .resource r => r.create.toList.map (Prod.mk %s"create") ++ r.put.toList.map (Prod.mk %s"put") ++
      r.read.toList.map (Prod.mk %s"read") ++ r.update.toList.map (Prod.mk %s"update") ++
      r.delete.toList.map (Prod.mk %s"delete") ++ r.list.toList.map (Prod.mk %s"list") ++
      r.operations.map (Prod.mk %s"operation") ++
      r.collectionOperations.map (Prod.mk %s"collectionOperation") ++ r.resources.map (Prod.mk %s"resource")
  | _ => []

/-- The graph describes the shape under its URN. -/
def ShapeAt (g : Graph) (s : TopLevelShape) : Prop :=
  ∃ ms ids ts, List.Forall₂ (MemberAt g) ms (membersOf s.body) ∧ IdentifiersAt g ids (identifiersOf s.body) ∧
    List.Forall₂ (TraitAt g) ts s.traits ∧
    About g (.iri (shapeToIri s.id)) ((rdfTerm %s"type", res (smithyTerm (className s.body))) ::
      ((literalsOf s.body).map (fun e => (smithyTerm e.1, str e.2)) ++ ms.map (Prod.mk (smithyTerm %s"member")) ++
      ids.map (Prod.mk (smithyTerm %s"identifiers")) ++
      (referencesOf s.body).map (fun e => (smithyTerm e.1, res (shapeToIri e.2))) ++
      ts.map (Prod.mk (smithyTerm %s"apply"))))

/-- The shape of the model with this id is defined (not a placeholder). -/
def DefinesShape (m : Model) (id : ShapeID) (s : TopLevelShape) : Prop := m.shape id = some s ∧ s.body ≠ .unresolved

/-- The graph describes the model at `root`: what is said about the root, which is the only thing of type `smithy:Model`, about each
of its shapes, and nothing is said about other named resources. -/
structure ModelAt (g : Graph) (root : Node) (m : Model) : Prop where
  about : ∀ p o, ⟨root, p, o⟩ ∈ g ↔
    (p = smithyTerm %s"smithy_version" ∧ o = str m.version.display) ∨
    (p = rdfTerm %s"type" ∧ o = res (smithyTerm %s"Model")) ∨
    (p = smithyTerm %s"shape" ∧ ∃ id s, DefinesShape m id s ∧ o = res (shapeToIri id))
  shapes : ∀ id s, DefinesShape m id s → ShapeAt g s
  unique : ∀ n, ⟨n, rdfTerm %s"type", res (smithyTerm %s"Model")⟩ ∈ g → n = root
  only : ∀ st ∈ g, ∀ i, st.subj = .iri i → st.subj = root ∨ ∃ id s, DefinesShape m id s ∧ i = shapeToIri id

/-- A node with another label for each blank node. -/
def relabelNode (f : Nat → Nat) : Node → Node
  | .iri i => .iri i
  | .blank n => .blank (f n)

@[inherit_doc relabelNode] def relabelObj (f : Nat → Nat) : Obj → Obj
  | .node n => .node (relabelNode f n)
  | .lit l => .lit l

/-- The graph with another label for each blank node. -/
def relabel (f : Nat → Nat) (g : Graph) : Graph := g.map fun st => ⟨relabelNode f st.subj, st.pred, relabelObj f st.obj⟩

/-- The two graphs are the same set of statements, up to the labels of blank nodes. -/
def SameGraph (g g' : Graph) : Prop := ∃ f : Nat → Nat, Function.Injective f ∧ ∀ st, st ∈ relabel f g ↔ st ∈ g'

/-! ### The same content -/

/-- An array or an object. -/
def isCompound : Value → Bool
  | .array _ | .object _ => true
  | _ => false

/-- The two lists have the same arrays and objects, in any order, and the same other values, in any order and any number of times. -/
def Shuffled (a b : List Value) : Prop := (a.filter isCompound).Perm (b.filter isCompound) ∧ ∀ x, isCompound x = false → (x ∈ a ↔ x ∈ b)

mutual
  /-- The two values are equal when the order of the elements of arrays is ignored, and the repetitions of those that are neither arrays
  nor objects. See `sameContent_object`. -/
  inductive SameContent : Value → Value → Prop
    | string (s : Str) : SameContent (.string s) (.string s)
    | number (n : Number) : SameContent (.number n) (.number n)
    | boolean (b : Bool) : SameContent (.boolean b) (.boolean b)
    | null : SameContent .none .none
    | array {a b : List Value} (c : List Value) : Shuffled a c → SameItems c b → SameContent (.array a) (.array b)
    | object {a b : List (Str × Value)} (f h : Str × Value → Value) :
        (∀ e ∈ a, (e.1, f e) ∈ b) → (∀ e ∈ a, SameContent e.2 (f e)) →
        (∀ e ∈ b, (e.1, h e) ∈ a) → (∀ e ∈ b, SameContent (h e) e.2) → SameContent (.object a) (.object b)
  /-- The two lists have the same content one by one. -/
  inductive SameItems : List Value → List Value → Prop
    | nil : SameItems [] []
    | cons {x y a b} : SameContent x y → SameItems a b → SameItems (x :: a) (y :: b)
end

/-- The two lists have the same elements. -/
def SameElements {α : Type} (a b : List α) : Prop := ∀ x, x ∈ a ↔ x ∈ b

/-- The same traits. -/
def TraitContent (a b : Traits) : Prop := MapRel (OptRel SameContent) a b

/-- The same member. -/
def MemberContent (a b : MemberShape) : Prop := a.id = b.id ∧ a.target = b.target ∧ TraitContent a.traits b.traits

/-- The same body, up to the order of lists, and to the renamed shapes of services. -/
inductive KindContent : ShapeKind → ShapeKind → Prop
  | simple {s} : KindContent (.simple s) (.simple s)
  | list {a b} : MemberContent a b → KindContent (.list a) (.list b)
  | set {a b} : MemberContent a b → KindContent (.set a) (.set b)
  | map {k v k' v'} : MemberContent k k' → MemberContent v v' → KindContent (.map k v) (.map k' v')
  | struct {a b} : MapRel MemberContent a b → KindContent (.struct a) (.struct b)
  | union {a b} : MapRel MemberContent a b → KindContent (.union a) (.union b)
  | service {a b : Service} : a.version = b.version → SameElements a.operations b.operations →
      SameElements a.resources b.resources → KindContent (.service a) (.service b)
  | operation {a b : Operation} : a.input = b.input → a.output = b.output → SameElements a.errors b.errors →
      KindContent (.operation a) (.operation b)
  | resource {a b : Resource} : MapRel Eq a.identifiers b.identifiers → (∀ l, a.lifecycle l = b.lifecycle l) →
      SameElements a.operations b.operations → SameElements a.collectionOperations b.collectionOperations →
      SameElements a.resources b.resources → KindContent (.resource a) (.resource b)

/-- The same shape. -/
structure ShapeContent (a b : TopLevelShape) : Prop where
  id : a.id = b.id
  traits : TraitContent a.traits b.traits
  body : KindContent a.body b.body

/-- The same version and the same defined shapes. -/
structure ModelContent (a b : Model) : Prop where
  version : a.version = b.version
  shapes : ∀ id, (∀ s, DefinesShape a id s → ∃ t, DefinesShape b id t ∧ ShapeContent s t) ∧
    (∀ t, DefinesShape b id t → ∃ s, DefinesShape a id s ∧ ShapeContent s t)

/-- The two members of a map have the names the constructor gives them. -/
def MapNames (m : Model) : Prop := ∀ id s k v, m.shape id = some s → s.body = .map k v → k.id = %s"key" ∧ v.id = %s"value"

end Verif.Spec
