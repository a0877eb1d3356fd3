/-
What the PlantUML text of a model should have.
-/
import Verif.Model
import Verif.Lines
import Verif.RdfSpec
import Mathlib.Data.List.Forall2

namespace Verif.Spec.Uml

/-- The operations of the lifecycle of a resource, in the order create, put, read, update, delete, list. -/
def lifecycle (r : Resource) : List ShapeID :=
  r.create.toList ++ r.put.toList ++ r.read.toList ++ r.update.toList ++ r.delete.toList ++ r.list.toList

/-- The operations a service or resource refers to. -/
def operationsOf : ShapeKind → List ShapeID
  | .service s => s.operations
  | .resource r => lifecycle r ++ r.operations ++ r.collectionOperations
  | _ => []

/-- The model defines this operation. -/
def IsOperation (m : Model) (id : ShapeID) (o : Operation) : Prop := ∃ s, m.shape id = some s ∧ s.body = .operation o

/-- The namespaces of the shapes that are defined. -/
def IsNamespaceOf (m : Model) (ns : Str) : Prop := ∃ id s, DefinesShape m id s ∧ id.ns = ns

/-- The first line of the drawing of a shape, if the shape is drawn. -/
def heading (s : TopLevelShape) : Option Str :=
  let stereotype (x : Str) : Str := %s"    class " ++ s.id.display ++ x ++ %s" {\n"
  let structured (x : Str) : Str :=
    if (⟨%s"smithy.api", %s"trait", none⟩ : ShapeID) ∈ s.traits.map (·.1) then %s"    annotation " ++ s.id.display ++ %s" {\n"
    else if (⟨%s"smithy.api", %s"error", none⟩ : ShapeID) ∈ s.traits.map (·.1) then stereotype %s" <<error>>"
    else stereotype x
  match s.body with
  | .simple _ => some (stereotype %s" <<dataType>>")
  | .service _ => some (stereotype %s" <<service>>")
  | .resource _ => some (stereotype %s" <<resource>>")
  | .struct _ => some (structured [])
  | .union _ => some (structured %s" <<union>>")
  | _ => none

/-- How a type is named in an operation. -/
def typeText (m : Model) (id : ShapeID) : Str :=
  match (m.shape id).map TopLevelShape.body with
  | some (.simple t) => t.display
  | some (.list x) => %s"List<" ++ x.target.name ++ %s">"
  | some (.set x) => %s"Set<" ++ x.target.name ++ %s">"
  | some (.map k v) => %s"Map<" ++ k.target.name ++ %s", " ++ v.target.name ++ %s">"
  | _ => id.display

/-- The line of an operation that is drawn under some name. -/
def operationLine (m : Model) (name : Str) (o : Operation) : Str :=
  %s"        " ++ name ++ %s"(in: " ++ (o.input.toList.flatMap (typeText m)) ++ %s")" ++
    (o.output.toList.flatMap fun t => %s": " ++ typeText m t) ++ %s"\n"

/-- The lines of operations, in their order, where each has its name or a given one. -/
def OperationLines (m : Model) (name : Option Str) (ids : List ShapeID) (text : Str) : Prop :=
  ∃ lines : List Str, text = lines.flatten ∧
    List.Forall₂ (fun id l => ∃ o, IsOperation m id o ∧ l = operationLine m (name.getD id.display) o) ids lines

/-- The trait of documentation, where the case of letters makes no difference. -/
def isDocumentation (t : ShapeID) : Bool := t.ceq ⟨%s"smithy.api", %s"documentation", none⟩

/-- The trait of errors, where the case of letters makes no difference. -/
def isError (t : ShapeID) : Bool := t.ceq ⟨%s"smithy.api", %s"error", none⟩

/-- How a trait is drawn: its id, and its value, though not that of an array or object. -/
def traitLine (f : Fmt) (t : ShapeID) (v : TraitValue) : Str :=
  %s"    @" ++ t.display ++ (match v with
    | some (.string s) => %s" = \"" ++ s ++ %s"\""
    | some (.number n) => %s" = " ++ showNumber f n
    | some (.boolean true) => %s" = true"
    | some (.boolean false) => %s" = false"
    | some (.array _) => %s" = [ .. ]"
    | some (.object _) => %s" = { .. }"
    | some .none | none => [])

/-- The part of a drawing with the traits, except `error` and `documentation`; it is empty if there are no others. -/
def traitsText (f : Fmt) (s : TopLevelShape) : Str :=
  let lines := (s.traits.filter fun e => !isError e.1 && !isDocumentation e.1).map fun e => traitLine f e.1 e.2
  if lines = [] then [] else %s"    " ++ joinWith %s"\n" lines ++ %s"\n        ..\n"

/-- The documentation of a shape. -/
def documentationOf (s : TopLevelShape) : List Str :=
  (s.traits.filter fun e => isDocumentation e.1).flatMap fun e => match e.2 with
    | some (.string d) => [d]
    | _ => []

/-- A note of a shape, with its number. -/
def noteText (f : Fmt) (s : TopLevelShape) (d : Str) (i : Nat) : Str :=
  let name := s.id.display ++ %s"_note_" ++ showNat i
  (if '\n' ∈ d then %s"    note as " ++ name ++ %s"\n" ++ f.debug d ++ %s"\n    end note\n"
   else %s"    note " ++ f.debug d ++ %s" as " ++ name ++ %s"\n") ++ %s"    " ++ s.id.display ++ %s" .. " ++ name ++ %s"\n"

/-- The part with the notes. -/
def notesText (f : Fmt) (s : TopLevelShape) : Str := (documentationOf s).zipIdx.flatMap fun e => noteText f s e.1 e.2

/-- The lines of associations. -/
def associations (s : TopLevelShape) (rs : List ShapeID) : Str :=
  rs.flatMap fun r => %s"    " ++ s.id.display ++ %s" *-- " ++ r.display ++ %s"\n"

/-- The text draws the shape, as far as it is drawn. -/
def Draws (expand : Bool) (f : Fmt) (m : Model) (s : TopLevelShape) (text : Str) : Prop :=
  match heading s with
  | none => text = []
  | some h =>
    match s.body with
    | .simple b =>
        text = h ++ traitsText f s ++ %s"    }\n    " ++ joinWith %s"\n" (documentationOf s) ++ %s"\n" ++
          (if expand then %s"    smithy.api." ++ b.display ++ %s" <|-- " ++ s.id.display ++ %s"\n" else []) ++ %s"\n"
    | .service b => ∃ ops, OperationLines m none b.operations ops ∧
        text = h ++ traitsText f s ++ %s"        version: string = \"" ++ b.version ++ %s"\"\n" ++ ops ++ %s"    }\n" ++ notesText f s ++
          associations s b.resources ++ %s"\n"
    | .resource b => ∃ life ops cops, OperationLines m (some %s"create") (lifecycle b) life ∧
        OperationLines m none b.operations ops ∧ OperationLines m none b.collectionOperations cops ∧
        text = h ++ traitsText f s ++ b.identifiers.flatMap (fun (e : Str × ShapeID) => %s"        " ++ e.1 ++ %s": " ++ e.2.display ++ %s"\n") ++ life ++
          (if b.operations = [] then [] else %s"        ..operations..\n") ++ ops ++
          (if b.collectionOperations = [] then [] else %s"        ..collectionOperations..\n") ++ cops ++ %s"    }\n" ++ notesText f s ++
          associations s b.resources ++ %s"\n"
    | .struct ms | .union ms => 
        text = h ++ traitsText f s ++ ms.flatMap (fun (e : Str × MemberShape) => %s"        " ++ e.1 ++ %s": " ++ e.2.target.display ++ %s"\n") ++ %s"    }\n" ++ notesText f s ++ %s"\n"
    | _ => False

/-- The text before the packages; the second package is for the types of the prelude. -/
def start (expand : Bool) : Str := %s"@startuml\n\nhide empty members\n\n" ++
  if expand then %s"package smithy.api {\n" ++
    ([%s"blob", %s"boolean", %s"document", %s"string", %s"byte", %s"short", %s"integer", %s"long", %s"float", %s"double", %s"bigInteger",
      %s"bigDecimal", %s"timestamp"].flatMap fun t => %s"    class " ++ t ++ %s" <<primitive>> { }\n") ++ %s"}\n\n"
  else []

/-- A package. -/
def package (expand : Bool) (ns : Str) (drawings : List Str) : Str :=
  %s"package " ++ ns ++ %s" {\n\n" ++ drawings.flatten ++ %s"}\n" ++ if expand then ns ++ %s" ..> smithy.api\n" else []

/-- The text with these packages. -/
def document (expand : Bool) (packages : List Str) : Str := start expand ++ packages.flatten ++ %s"\n@enduml\n"

/-! ### What makes no difference -/

/-- Two values of a trait that are drawn the same way: equal ones, any two arrays, any two objects. -/
inductive LikeValue : TraitValue → TraitValue → Prop
  | refl {v : TraitValue} : LikeValue v v
  | array {l l' : List Value} : LikeValue (some (.array l)) (some (.array l'))
  | object {o o' : AMap Str Value} : LikeValue (some (.object o)) (some (.object o'))

/-- The same traits, with values that are drawn the same way. -/
def LikeTraits : Traits → Traits → Prop := List.Forall₂ fun a b => a.1 = b.1 ∧ LikeValue a.2 b.2

/-- The same members, whatever their traits. -/
def LikeMembers : AMap Str MemberShape → AMap Str MemberShape → Prop :=
  List.Forall₂ fun a b => a.1 = b.1 ∧ a.2.id = b.2.id ∧ a.2.target = b.2.target

/-- Shapes that are drawn the same way. -/
inductive Alike : TopLevelShape → TopLevelShape → Prop
  | simple {id : ShapeID} {ts ts' : Traits} {b : Simple} : LikeTraits ts ts' → Alike ⟨id, ts, .simple b⟩ ⟨id, ts', .simple b⟩
  | struct {id : ShapeID} {ts ts' : Traits} {ms ms' : AMap Str MemberShape} : LikeTraits ts ts' → LikeMembers ms ms' →
      Alike ⟨id, ts, .struct ms⟩ ⟨id, ts', .struct ms'⟩
  | union {id : ShapeID} {ts ts' : Traits} {ms ms' : AMap Str MemberShape} : LikeTraits ts ts' → LikeMembers ms ms' →
      Alike ⟨id, ts, .union ms⟩ ⟨id, ts', .union ms'⟩
  | service {id : ShapeID} {ts ts' : Traits} {s s' : Service} : LikeTraits ts ts' → s.version = s'.version → s.operations = s'.operations →
      s.resources = s'.resources → Alike ⟨id, ts, .service s⟩ ⟨id, ts', .service s'⟩
  | resource {id : ShapeID} {ts ts' : Traits} {r r' : Resource} : LikeTraits ts ts' → r.identifiers = r'.identifiers →
      lifecycle r = lifecycle r' → r.operations = r'.operations → r.collectionOperations = r'.collectionOperations →
      r.resources = r'.resources → Alike ⟨id, ts, .resource r⟩ ⟨id, ts', .resource r'⟩
  | list {id : ShapeID} {ts ts' : Traits} {m m' : MemberShape} : m.target = m'.target → Alike ⟨id, ts, .list m⟩ ⟨id, ts', .list m'⟩
  | set {id : ShapeID} {ts ts' : Traits} {m m' : MemberShape} : m.target = m'.target → Alike ⟨id, ts, .set m⟩ ⟨id, ts', .set m'⟩
  | map {id : ShapeID} {ts ts' : Traits} {k k' v v' : MemberShape} : k.target = k'.target → v.target = v'.target →
      Alike ⟨id, ts, .map k v⟩ ⟨id, ts', .map k' v'⟩
  | operation {id : ShapeID} {ts ts' : Traits} {o o' : Operation} : o.input = o'.input → o.output = o'.output →
      Alike ⟨id, ts, .operation o⟩ ⟨id, ts', .operation o'⟩
  | unresolved {id : ShapeID} {ts ts' : Traits} : Alike ⟨id, ts, .unresolved⟩ ⟨id, ts', .unresolved⟩

/-- Models with shapes, in the same order, that are drawn the same way. -/
def AlikeModels (m m' : Model) : Prop := List.Forall₂ (fun a b => a.1 = b.1 ∧ Alike a.2 b.2) m.shapes m'.shapes

end Verif.Spec.Uml
