/-
What XML documents are (the part of XML 1.0 without comments, references, CDATA sections, processing instructions and
document types), and which GraphML document describes a semantic model.
-/
import Verif.GraphML
import Verif.JsonSpec
import Verif.RdfSpec

namespace Verif.Spec

namespace Xml

/-- Elements, with their attributes and their content, and text. -/
inductive Node where
  | element (tag : Str) (attrs : List (Str × Str)) (content : List Node)
  | text (s : Str)
  deriving Repr

/-- `S` of XML 1.0. -/
def Space (c : Char) : Prop := c = ' ' ∨ c = '\t' ∨ c = '\n' ∨ c = '\r'

instance (c : Char) : Decidable (Space c) := by unfold Space; infer_instance

/-- `Char` of XML 1.0. -/
def IsChar (c : Char) : Prop :=
  c = '\t' ∨ c = '\n' ∨ c = '\r' ∨ (0x20 ≤ c.toNat ∧ c.toNat ≤ 0xD7FF) ∨ (0xE000 ≤ c.toNat ∧ c.toNat ≤ 0xFFFD) ∨ 0x10000 ≤ c.toNat

instance (c : Char) : Decidable (IsChar c) := by unfold IsChar; infer_instance

/-- `NameChar` of XML 1.0, the ASCII part. -/
def NameChar (c : Char) : Prop := c.isAlphanum = true ∨ c = '_' ∨ c = ':' ∨ c = '-' ∨ c = '.'

instance (c : Char) : Decidable (NameChar c) := by unfold NameChar; infer_instance

/-- `Name` of XML 1.0, the ASCII part. -/
def IsName (s : Str) : Prop := (∃ c t, s = c :: t ∧ (c.isAlpha = true ∨ c = '_' ∨ c = ':')) ∧ ∀ c ∈ s, NameChar c

/-- The raw text of an attribute value in double quotes (without carriage returns, which are normalised in yet another way). -/
def AttText (s : Str) : Prop := ∀ c ∈ s, IsChar c ∧ c ≠ '<' ∧ c ≠ '&' ∧ c ≠ '"' ∧ c ≠ '\r'

/-- The value an attribute text stands for: white space is normalised. -/
def attValue (s : Str) : Str := s.map fun c => if c = '\n' ∨ c = '\t' then ' ' else c

/-- The attributes of a start tag, with the white space before each of them. -/
inductive Attrs : Str → List (Str × Str) → Prop
  | nil : Attrs [] []
  | cons {ws name v t : Str} {as : List (Str × Str)} : ws ≠ [] → (∀ c ∈ ws, Space c) → IsName name → AttText v → Attrs t as →
      Attrs (ws ++ (name ++ ('=' :: '"' :: (v ++ ('"' :: t))))) ((name, attValue v) :: as)

/-- Text between tags (without carriage returns, which are normalised). -/
def CharData (s : Str) : Prop := (∀ c ∈ s, IsChar c ∧ c ≠ '<' ∧ c ≠ '&' ∧ c ≠ '\r') ∧ ¬ %s"]]>" <:+: s

/-- The text is the content of an element: elements and text, where a text is as long as possible. -/
inductive Content : Str → List Node → Prop
  | nil : Content [] []
  | text {s t : Str} {ns : List Node} : s ≠ [] → CharData s → (∀ s', ns.head? ≠ some (.text s')) → Content t ns →
      Content (s ++ t) (.text s :: ns)
  | element {name a c t : Str} {as : List (Str × Str)} {ns ns' : List Node} : IsName name → Attrs a as →
      (as.map (·.1)).Nodup → Content c ns → Content t ns' →
      Content ('<' :: (name ++ (a ++ ('>' :: (c ++ ('<' :: '/' :: (name ++ ('>' :: t)))))))) (.element name as ns :: ns')
  | empty {name a t : Str} {as : List (Str × Str)} {ns' : List Node} : IsName name → Attrs a as →
      (as.map (·.1)).Nodup → Content t ns' →
      Content ('<' :: (name ++ (a ++ ('/' :: '>' :: t)))) (.element name as [] :: ns')

/-- The text is an XML document with this root element. -/
def Document (s : Str) (root : Node) : Prop :=
  ∃ e ws : Str, s = %s"<?xml version=\"1.0\" encoding=\"UTF-8\"?>\n" ++ (e ++ ws) ∧ Content e [root] ∧ (∃ t a c, root = .element t a c) ∧
    ∀ c ∈ ws, Space c

def Node.isElement : Node → Bool
  | .element .. => true
  | .text _ => false

def blank (s : Str) : Bool := s.all fun c => decide (Space c)

mutual
  /-- The node without the white space between elements, that is in an element that contains elements. -/
  def withoutLayout : Node → Node
    | .text s => .text s
    | .element t a c => .element t a (withoutLayoutAll (c.any Node.isElement) c)
  /-- The same for the content of an element (`mixed`: it contains elements). -/
  def withoutLayoutAll (mixed : Bool) : List Node → List Node
    | [] => []
    | .text s :: ns => if mixed && blank s then withoutLayoutAll mixed ns else .text s :: withoutLayoutAll mixed ns
    | .element t a c :: ns => .element t a (withoutLayoutAll (c.any Node.isElement) c) :: withoutLayoutAll mixed ns
end

end Xml

namespace GraphML
open Xml (Node)

/-- An element content that is just text, which may be empty. -/
def text : Str → List Node
  | [] => []
  | c :: s => [.text (c :: s)]

/-- `<data key="..">..</data>`. -/
def data (key value : Str) : Node := .element %s"data" [(%s"key", key)] (text value)

/-- The type of a shape in GraphML. -/
def typeOf : ShapeKind → Str
  | .simple s => s.display
  | .list _ => %s"list"
  | .set _ => %s"set"
  | .map _ _ => %s"map"
  | .struct _ => %s"structure"
  | .union _ => %s"union"
  | .service _ => %s"service"
  | .operation _ => %s"operation"
  | .resource _ => %s"resource"
  | .unresolved => []

/-- The node of a shape: its id, its type, and its version if it is a service. -/
def nodeOf (s : TopLevelShape) : Node :=
  .element %s"node" [(%s"id", s.id.display)] (data %s"type" (typeOf s.body) ::
    match s.body with
    | .service v => [data %s"version" v.version]
    | _ => [])

/-- The members of a shape: their names and their targets. -/
def membersOf : ShapeKind → List (Str × ShapeID)
  | .list m | .set m => [(%s"member", m.target)]
  | .map k v => [(%s"key", k.target), (%s"value", v.target)]
  | .struct ms | .union ms => ms.map fun (e : Str × MemberShape) => (e.1, e.2.target)
  | .service s => s.operations.map (Prod.mk %s"operations") ++ s.resources.map (Prod.mk %s"resources")
  | .operation o => o.input.toList.map (Prod.mk %s"input") ++ o.output.toList.map (Prod.mk %s"output") ++
      o.errors.map (Prod.mk %s"errors")
  | .resource r => r.create.toList.map (Prod.mk %s"create") ++ r.put.toList.map (Prod.mk %s"put") ++
      r.read.toList.map (Prod.mk %s"read") ++ r.update.toList.map (Prod.mk %s"update") ++
      r.delete.toList.map (Prod.mk %s"delete") ++ r.list.toList.map (Prod.mk %s"list") ++
      r.operations.map (Prod.mk %s"operations") ++
      r.collectionOperations.map (Prod.mk %s"collectionOperations") ++ r.resources.map (Prod.mk %s"resources")
  | .simple _ | .unresolved => []

/-- What a shape refers to: key and value of the data of the edge, and the target. -/
def referencesOf (s : TopLevelShape) : List (Str × Str × ShapeID) :=
  s.traits.map (fun (e : ShapeID × TraitValue) => (%s"trait", %s"true", e.1)) ++ (membersOf s.body).map (Prod.mk %s"member")

/-- The edges of a shape, without their ids: source, target, key and value of the data. -/
def edgesOf (s : TopLevelShape) : List (Str × Str × Str × Str) :=
  (referencesOf s).map fun e => (s.id.display, e.2.2.display, e.1, e.2.1)

/-- The edge with this id. -/
def edge (id : Str) (e : Str × Str × Str × Str) : Node :=
  .element %s"edge" [(%s"id", id), (%s"source", e.1), (%s"target", e.2.1)] [data e.2.2.1 e.2.2.2]

/-- The shapes of the model that are defined (not placeholders). -/
def definedShapes (m : Model) : List TopLevelShape := (m.shapes.map (·.2)).filter fun s => !s.isUnresolved

/-- The number of edges of a model. -/
def edgeCount (m : Model) : Nat := ((definedShapes m).flatMap edgesOf).length

/-- The declaration of a key. -/
def key (id target name type : Str) (content : List Node) : Node :=
  .element %s"key" [(%s"id", id), (%s"for", target), (%s"attr.name", name), (%s"attr.type", type)] content

/-- The declarations of all keys. -/
def keys : List Node := [
  key %s"smithy-version" %s"graph" %s"smithy.version" %s"string" [],
  key %s"type" %s"node" %s"type" %s"string" [],
  key %s"version" %s"node" %s"version" %s"string" [],
  key %s"trait" %s"edge" %s"trait" %s"boolean" [],
  key %s"member" %s"edge" %s"member" %s"string" [.element %s"default" [] [.text %s"member"]]]

/-- The GraphML document with this version and these nodes and edges. -/
def document (version : Str) (items : List Node) : Node :=
  .element %s"graphml" [(%s"xmlns", %s"http://graphml.graphdrawing.org/xmlns"),
    (%s"xmlns:xsi", %s"http://www.w3.org/2001/XMLSchema-instance"),
    (%s"xsi:schemaLocation", %s"http://graphml.graphdrawing.org/xmlns         http://graphml.graphdrawing.org/xmlns/1.0/graphml.xsd")]
    (keys ++ [.element %s"graph" [(%s"id", %s"model"), (%s"edgedefault", %s"directed")] (data %s"smithy.version" version :: items)])

/-- The items are the nodes of all defined shapes, once each, and all their edges, with some ids; in some order. -/
def Items (m : Model) (items : List Node) : Prop :=
  ∃ ids edges, edges.Perm ((definedShapes m).flatMap edgesOf) ∧ ids.length = edges.length ∧
    items.Perm ((definedShapes m).map nodeOf ++ List.zipWith edge ids edges)

/-- The values of an attribute of the elements with this tag. -/
def attributes (tag name : Str) (items : List Node) : List Str := items.filterMap fun
  | .element t as _ => if t = tag then AMap.get as name else none
  | .text _ => none

/-- The node is in the tree. -/
inductive Within : Node → Node → Prop
  | here {n : Node} : Within n n
  | child {n c : Node} {t : Str} {as : List (Str × Str)} {cs : List Node} : c ∈ cs → Within n c → Within n (.element t as cs)

/-- Every `data` element of a GraphML document names a `key` that is declared (as GraphML demands). -/
def KeysDeclared (root : Node) : Prop :=
  ∀ t as cs, root = .element t as cs → ∀ das dcs, Within (.element %s"data" das dcs) root →
    ∃ k, AMap.get das %s"key" = some k ∧ k ∈ attributes %s"key" %s"id" cs

/-- Every edge starts and ends at a node (as GraphML demands). -/
def EndsAreNodes (items : List Node) : Prop :=
  ∀ x ∈ attributes %s"edge" %s"source" items ++ attributes %s"edge" %s"target" items, x ∈ attributes %s"node" %s"id" items

/-- The versions of services need no escapes in XML. -/
def PlainVersions (m : Model) : Prop := ∀ id s v, m.shape id = some s → s.body = .service v → Xml.CharData v.version

end GraphML
end Verif.Spec
