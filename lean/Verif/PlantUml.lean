/-
Model of atelier-describe/src/plant_uml/writer.rs: PlantUML texts of semantic models.

Writing to the output is taken not to fail; the order of hash maps and sets is that of the lists in the model.
-/
import Verif.Model
import Verif.Lines

namespace Verif
namespace PlantUml

/-- `writeln!(w, ..)?`. -/
def line (s : Str) : Str := s ++ ['\n']

/-- `PlantUmlWriter::type_string`, atelier-describe/src/plant_uml/writer.rs:444-460. -/
def typeString (id : ShapeID) (m : Model) : Str :=
  match m.shape id with
  | some shape =>
    match shape.body with
    | .simple st => st.display
    | .list l => %s"List<" ++ l.target.name ++ %s">"
    | .set s => %s"Set<" ++ s.target.name ++ %s">"
    | .map k v => %s"Map<" ++ k.target.name ++ %s", " ++ v.target.name ++ %s">"
    | _ => id.display
  | none => id.display

/-- `PlantUmlWriter::write_operation`, atelier-describe/src/plant_uml/writer.rs:358-390. -/
def writeOperation (operId : ShapeID) (m : Model) (otherName : Option Str) : Except Err Str :=
  match m.shape operId with
  | none => .error .panic
  | some operation =>
    match operation.body with
    | .operation o => .ok (line (%s"        " ++ (match otherName with | none => operation.id.display | some name => name) ++ %s"(in: " ++
        (match o.input with | some i => typeString i m | none => []) ++ %s")" ++
        (match o.output with | some i => %s": " ++ typeString i m | none => [])))
    | _ => .error .panic

/-- A loop that writes. -/
def writeAll {α : Type} (f : α → Except Err Str) : List α → Except Err Str
  | [] => .ok []
  | x :: l =>
    match f x with
    | .error e => .error e
    | .ok s =>
      match writeAll f l with
      | .error e => .error e
      | .ok t => .ok (s ++ t)

/-- `if let Some(..) = .. { .. }`. -/
def writeOption {α : Type} (f : α → Except Err Str) : Option α → Except Err Str
  | none => .ok []
  | some x => f x

/-- One step after the other. -/
def thenWrite (a b : Except Err Str) : Except Err Str :=
  match a with
  | .error e => .error e
  | .ok s =>
    match b with
    | .error e => .error e
    | .ok t => .ok (s ++ t)

def errorTrait : ShapeID := ⟨%s"smithy.api", %s"error", none⟩
def documentationTrait : ShapeID := ⟨%s"smithy.api", %s"documentation", none⟩
def traitTrait : ShapeID := ⟨%s"smithy.api", %s"trait", none⟩

/-- The loop of `PlantUmlWriter::write_class_traits`, atelier-describe/src/plant_uml/writer.rs:400-417: the texts of traits, and the notes. -/
def classTraits (f : Fmt) : List (ShapeID × TraitValue) → List Str × List Str
  | [] => ([], [])
  | (id, value) :: l =>
    let (traits, notes) := classTraits f l
    if id.ceq errorTrait then (traits, notes)
    else if id.ceq documentationTrait then
      match value with
      | some (.string s) => (traits, s :: notes)
      | _ => (traits, notes)
    else ((match value with
      | none | some .none => %s"    @" ++ id.display
      | some (.string v) => %s"    @" ++ id.display ++ %s" = \"" ++ v ++ %s"\""
      | some (.number v) => %s"    @" ++ id.display ++ %s" = " ++ showNumber f v
      | some (.boolean v) => %s"    @" ++ id.display ++ %s" = " ++ showBool v
      | some (.array _) => %s"    @" ++ id.display ++ %s" = [ .. ]"
      | some (.object _) => %s"    @" ++ id.display ++ %s" = { .. }") :: traits, notes)

/-- `PlantUmlWriter::write_class_traits`, atelier-describe/src/plant_uml/writer.rs:392-423: what is written, and the notes. -/
def writeClassTraits (f : Fmt) (shape : TopLevelShape) : Str × List Str :=
  let (traits, notes) := classTraits f shape.traits
  (if traits.isEmpty then [] else line (%s"    " ++ joinWith ['\n'] traits) ++ line %s"        ..", notes)

/-- `PlantUmlWriter::write_class_notes`, atelier-describe/src/plant_uml/writer.rs:425-442, from the `idx`-th note on. -/
def writeClassNotes (f : Fmt) (id : ShapeID) (idx : Nat) : List Str → Str
  | [] => []
  | note :: l =>
    (if note.contains '\n' then
      line (%s"    note as " ++ id.display ++ %s"_note_" ++ showNat idx) ++ line (f.debug note) ++ line %s"    end note"
     else line (%s"    note " ++ f.debug note ++ %s" as " ++ id.display ++ %s"_note_" ++ showNat idx)) ++
    line (%s"    " ++ id.display ++ %s" .. " ++ id.display ++ %s"_note_" ++ showNat idx) ++ writeClassNotes f id (idx + 1) l

/-- `PlantUmlWriter::write_service`, atelier-describe/src/plant_uml/writer.rs:225-251. -/
def writeService (f : Fmt) (service : TopLevelShape) (body : Service) (m : Model) : Except Err Str :=
  let (traits, notes) := writeClassTraits f service
  thenWrite (.ok (line (%s"    class " ++ service.id.display ++ %s" <<service>> {") ++ traits ++
    line (%s"        version: string = \"" ++ body.version ++ %s"\""))) <|
  thenWrite (writeAll (fun o => writeOperation o m none) body.operations) <|
  .ok (line %s"    }" ++ writeClassNotes f service.id 0 notes ++
    body.resources.flatMap (fun r => line (%s"    " ++ service.id.display ++ %s" *-- " ++ r.display)) ++ line [])

/-- `PlantUmlWriter::write_resource`, atelier-describe/src/plant_uml/writer.rs:253-302. -/
def writeResource (f : Fmt) (resource : TopLevelShape) (body : Resource) (m : Model) : Except Err Str :=
  let (traits, notes) := writeClassTraits f resource
  thenWrite (.ok (line (%s"    class " ++ resource.id.display ++ %s" <<resource>> {") ++ traits ++
    body.identifiers.flatMap (fun (e : Str × ShapeID) => line (%s"        " ++ e.1 ++ %s": " ++ e.2.display)))) <|
  thenWrite (writeOption (fun o => writeOperation o m (some %s"create")) body.create) <|
  thenWrite (writeOption (fun o => writeOperation o m (some %s"create")) body.put) <|
  thenWrite (writeOption (fun o => writeOperation o m (some %s"create")) body.read) <|
  thenWrite (writeOption (fun o => writeOperation o m (some %s"create")) body.update) <|
  thenWrite (writeOption (fun o => writeOperation o m (some %s"create")) body.delete) <|
  thenWrite (writeOption (fun o => writeOperation o m (some %s"create")) body.list) <|
  thenWrite (if body.operations.isEmpty then .ok [] else
    thenWrite (.ok (line %s"        ..operations..")) (writeAll (fun o => writeOperation o m none) body.operations)) <|
  thenWrite (if body.collectionOperations.isEmpty then .ok [] else
    thenWrite (.ok (line %s"        ..collectionOperations..")) (writeAll (fun o => writeOperation o m none) body.collectionOperations)) <|
  .ok (line %s"    }" ++ writeClassNotes f resource.id 0 notes ++
    body.resources.flatMap (fun r => line (%s"    " ++ resource.id.display ++ %s" *-- " ++ r.display)) ++ line [])

/-- `PlantUmlWriter::write_class`, atelier-describe/src/plant_uml/writer.rs:304-332. -/
def writeClass (f : Fmt) (structure_ : TopLevelShape) (isUnion : Bool) (members : AMap Str MemberShape) : Str :=
  let (traits, notes) := writeClassTraits f structure_
  (if AMap.contains structure_.traits traitTrait then line (%s"    annotation " ++ structure_.id.display ++ %s" {")
   else if AMap.contains structure_.traits errorTrait then line (%s"    class " ++ structure_.id.display ++ %s" <<error>> {")
   else if isUnion then line (%s"    class " ++ structure_.id.display ++ %s" <<union>> {")
   else line (%s"    class " ++ structure_.id.display ++ %s" {")) ++ traits ++
  (AMap.values members).flatMap (fun x => line (%s"        " ++ x.id ++ %s": " ++ x.target.display)) ++
  line %s"    }" ++ writeClassNotes f structure_.id 0 notes ++ line []

/-- `PlantUmlWriter::write_data_type`, atelier-describe/src/plant_uml/writer.rs:334-356. -/
def writeDataType (expand : Bool) (f : Fmt) (dataType : TopLevelShape) (simple : Simple) : Str :=
  let (traits, notes) := writeClassTraits f dataType
  line (%s"    class " ++ dataType.id.display ++ %s" <<dataType>> {") ++ traits ++ line %s"    }" ++
  line (%s"    " ++ joinWith ['\n'] notes) ++
  (if expand then line (%s"    smithy.api." ++ simple.display ++ %s" <|-- " ++ dataType.id.display) else []) ++ line []

/-- `PlantUmlWriter::write_smithy_model`, atelier-describe/src/plant_uml/writer.rs:201-223. -/
def writeSmithyModel : Str :=
  line %s"package smithy.api {" ++
  [Simple.blob, .boolean, .document, .string, .byte, .short, .integer, .long, .float, .double, .bigInteger, .bigDecimal, .timestamp].flatMap
    (fun s => line (%s"    class " ++ s.display ++ %s" <<primitive>> { }")) ++
  line %s"}" ++ line []

/-- The `match` of `PlantUmlWriter::write`, atelier-describe/src/plant_uml/writer.rs:171-179. -/
def writeElement (expand : Bool) (f : Fmt) (m : Model) (element : TopLevelShape) : Except Err Str :=
  match element.body with
  | .simple s => .ok (writeDataType expand f element s)
  | .service s => writeService f element s m
  | .resource r => writeResource f element r m
  | .struct ms => .ok (writeClass f element false ms)
  | .union ms => .ok (writeClass f element true ms)
  | _ => .ok []

/-- The body of the loop over namespaces of `PlantUmlWriter::write`, atelier-describe/src/plant_uml/writer.rs:168-185. -/
def writePackage (expand : Bool) (f : Fmt) (m : Model) (ns : Str) : Except Err Str :=
  thenWrite (.ok (line (%s"package " ++ ns ++ %s" {") ++ line [])) <|
  thenWrite (writeAll (writeElement expand f m) m.shapesList) <|
  .ok (line %s"}" ++ if expand then line (ns ++ %s" ..> smithy.api") else [])

/-- `PlantUmlWriter::write`, atelier-describe/src/plant_uml/writer.rs:157-189. -/
def write (expand : Bool) (f : Fmt) (m : Model) : Except Err Str :=
  thenWrite (.ok (line %s"@startuml" ++ line [] ++ line %s"hide empty members" ++ line [] ++ if expand then writeSmithyModel else [])) <|
  thenWrite (writeAll (writePackage expand f m) m.namespaces) <|
  .ok (line [] ++ line %s"@enduml")

end PlantUml
end Verif
