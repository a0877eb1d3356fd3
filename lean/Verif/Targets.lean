/-
Writers and targets that can fail: atelier-core/src/io/lines.rs, atelier-smithy/src/writer.rs,
atelier-describe/src/graphml/writer.rs and atelier-describe/src/plant_uml/writer.rs once more, this time write by write.

`Lines`, `IdlWriter`, `GraphML` and `PlantUml` model the text that is written if nothing goes wrong with the target. Here a
target (`impl std::io::Write`) is anything that takes texts and can fail at any of them.
-/
import Verif.IdlWriter
import Verif.GraphML
import Verif.PlantUml

namespace Verif.Targets

/-- A target, `impl std::io::Write`: what `write_all` does with a text. It takes all of it (`none`), or fails with an error
after some number of characters. Simplifications: a failing target stops between two characters, not within one; and
`write!` gives its text at once (the standard library gives its pieces one after the other, and stops at the first that fails). -/
structure Sink (σ ε : Type) where
  write : σ → Str → σ × Option (Nat × ε)

/-- The error of a writer: that of the target (`ErrorKind::Io`, made by `?`: atelier-core/src/error.rs:156-159), or its own. -/
inductive Fault (ε : Type) where
  | target (e : ε)
  | own (e : Err)

/-- Where a writer is: what it keeps in mind (`GraphML`: the number of the next edge), the target, and what arrived there. -/
structure Run (γ σ : Type) where
  mind : γ
  target : σ
  arrived : Str

/-- A writer works with any target. -/
structure Writer (γ : Type) where
  run : {σ ε : Type} → Sink σ ε → Step (Run γ σ) (Fault ε)

namespace Writer
variable {γ : Type}

/-- `write!(w, ..)?`. -/
def put (s : Str) : Writer γ := ⟨fun k r =>
  match k.write r.target s with
  | (t, none) => (⟨r.mind, t, r.arrived ++ s⟩, .ok ())
  | (t, some (n, e)) => (⟨r.mind, t, r.arrived ++ s.take n⟩, .error (.target e))⟩

/-- `writeln!(w, ..)?`. -/
def line (s : Str) : Writer γ := put (s ++ ['\n'])

/-- `Ok(())`. -/
def pass : Writer γ := ⟨fun _ r => (r, .ok ())⟩

/-- A panic, or an error that does not come from the target. -/
def fail (e : Err) : Writer γ := ⟨fun _ r => (r, .error (.own e))⟩

/-- `a?; b`. -/
def andThen (a b : Writer γ) : Writer γ := ⟨fun k => (a.run k).andThen (b.run k)⟩

/-- Statements one after the other, each with `?`. -/
def seq : List (Writer γ) → Writer γ
  | [] => pass
  | a :: l => a.andThen (seq l)

/-- `for x in xs { f(x)?; }`. -/
def forEach {α : Type} (f : α → Writer γ) (l : List α) : Writer γ := seq (l.map f)

/-- `if let Some(x) = o { f(x)?; }`. -/
def ifSome {α : Type} (f : α → Writer γ) : Option α → Writer γ
  | none => pass
  | some x => f x

/-- `if c { a?; }`. -/
def when (c : Bool) (a : Writer γ) : Writer γ := if c then a else pass

end Writer

open Writer

/-- `ModelWriter for LineOrientedWriter`, atelier-core/src/io/lines.rs:202-209. -/
def lines (f : Fmt) (m : Model) : Writer Unit := forEach line (lineForm f m)

/-! ### atelier-smithy/src/writer.rs -/

namespace Idl

mutual
  /-- `write_value`, atelier-smithy/src/writer.rs:312-347. -/
  def value (f : Fmt) (top : Bool) : Value → Writer Unit
    | .array vs => seq [put %s"[", items f 0 (if vs.isEmpty then 0 else vs.length - 1) vs, put %s"]"]
    | .object es => seq [when (!top) (put %s"{"), entries f 0 (if es.isEmpty then 0 else es.length - 1) es, when (!top) (put %s"}")]
    | .number n => put (showNumber f n)
    | .boolean b => put (showBool b)
    | .string s => put (f.debug s)
    | .none => pass
  termination_by structural x => x
  /-- The loop over the elements, atelier-smithy/src/writer.rs:317-322; `i` is the index of the first element. -/
  def items (f : Fmt) (i last : Nat) : List Value → Writer Unit
    | [] => pass
    | v :: vs => seq [value f false v, when (decide (i < last)) (put %s", "), items f (i + 1) last vs]
  termination_by structural x => x
  /-- The loop over the entries, atelier-smithy/src/writer.rs:330-336. -/
  def entries (f : Fmt) (i last : Nat) : List (Str × Value) → Writer Unit
    | [] => pass
    | e :: es => seq [entry f e, when (decide (i < last)) (put %s", "), entries f (i + 1) last es]
  termination_by structural x => x
  /-- A key and a value, atelier-smithy/src/writer.rs:331-332. -/
  def entry (f : Fmt) : Str × Value → Writer Unit
    | (k, v) => seq [put (k ++ %s": "), value f false v]
  termination_by structural x => x
end

/-- `write_trait`, atelier-smithy/src/writer.rs:286-310. -/
def trait (f : Fmt) (ns pre : Str) (t : ShapeID × TraitValue) : Writer Unit :=
  seq [put (pre ++ %s"@" ++ if identEq t.1.ns ns || identEq t.1.ns preludeNs then t.1.name else t.1.display),
    match t.2 with
    | none => line []
    | some v => seq [put %s"(", value f true v, line %s")"]]

/-- `write_member`, atelier-smithy/src/writer.rs:361-378. -/
def member (f : Fmt) (ns pre : Str) (m : MemberShape) : Writer Unit :=
  seq [forEach (trait f ns pre) m.traits, line (pre ++ m.id ++ %s": " ++ m.target.name)]

/-- `writeln!(w, "    {}: [{}]", key, ids.join(", "))` if there are any, atelier-smithy/src/writer.rs:159-182, 193-204, 234-269. -/
def names (key : Str) (ids : List ShapeID) : Writer Unit :=
  when (!ids.isEmpty) (line (%s"    " ++ key ++ %s": [" ++ joinWith %s", " (ids.map (·.name)) ++ %s"]"))

/-- `if let Some(id) = .. { writeln!(w, "    {}: {}", key, id.shape_name())?; }`, atelier-smithy/src/writer.rs:187-192, 216-233. -/
def target (key : Str) (id : Option ShapeID) : Writer Unit := ifSome (fun i => line (%s"    " ++ key ++ %s": " ++ i.name)) id

/-- The `match` on the body, atelier-smithy/src/writer.rs:121-280. -/
def statement (f : Fmt) (ns : Str) (s : TopLevelShape) : Writer Unit :=
  match s.body with
  | .simple st => line (st.display ++ %s" " ++ s.id.name)
  | .list m => seq [line (%s"list " ++ s.id.name ++ %s" {"), line (%s"    member: " ++ m.target.display), line %s"}"]
  | .set m => seq [line (%s"set " ++ s.id.name ++ %s" {"), line (%s"    member: " ++ m.target.display), line %s"}"]
  | .map k v => seq [line (%s"map " ++ s.id.name ++ %s" {"), line (%s"    key: " ++ k.target.name),
      line (%s"    value: " ++ v.target.name), line %s"}"]
  | .struct ms => seq [line (%s"structure " ++ s.id.name ++ %s" {"), forEach (member f ns %s"    ") (AMap.values ms), line %s"}"]
  | .union ms => seq [line (%s"union " ++ s.id.name ++ %s" {"), forEach (member f ns %s"    ") (AMap.values ms), line %s"}"]
  | .service x => seq [line (%s"service " ++ s.id.name ++ %s" {"), line (%s"    version: " ++ f.debug x.version),
      names %s"operations" x.operations, names %s"resources" x.resources, line %s"}"]
  | .operation x => seq [line (%s"operation " ++ s.id.name ++ %s" {"), target %s"input" x.input, target %s"output" x.output,
      names %s"errors" x.errors, line %s"}"]
  | .resource x => seq [line (%s"resource " ++ s.id.name ++ %s" {"),
      when (!x.identifiers.isEmpty) (seq [line %s"    identifiers: {",
        forEach (fun (e : Str × ShapeID) => line (%s"        " ++ e.1 ++ %s": " ++ e.2.name)) x.identifiers, line %s"    }"]),
      target %s"create" x.create, target %s"put" x.put, target %s"read" x.read, target %s"update" x.update,
      target %s"delete" x.delete, target %s"list" x.list, names %s"operations" x.operations,
      names %s"collectionOperations" x.collectionOperations, names %s"resources" x.resources, line %s"}"]
  | .unresolved => when (!s.traits.isEmpty)
      (forEach (fun t => seq [put (%s"apply " ++ s.id.display ++ %s" "), trait f ns [] t]) s.traits)

/-- One round of the loop of `write_shape_statements`, atelier-smithy/src/writer.rs:116-281. -/
def shape (f : Fmt) (ns : Str) (s : TopLevelShape) : Writer Unit :=
  seq [when (!s.body.isUnresolved) (forEach (trait f ns []) s.traits), statement f ns s, line []]

/-- `ModelWriter for SmithyWriter`, atelier-smithy/src/writer.rs:48-110. -/
def write (f : Fmt) (ns : Str) (m : Model) : Writer Unit := seq [
  -- `write_control_section`, 64-74
  line (%s"$version: \"" ++ m.version.display ++ %s"\""), line [],
  -- `write_metadata_section`, 76-86
  when m.hasMetadata (seq [
    forEach (fun e => seq [put (%s"metadata \"" ++ e.1 ++ %s"\" = "), value f true e.2, line []]) m.metadata, line []]),
  -- `write_namespace_statement`, 93-97
  line (%s"namespace " ++ ns), line [],
  -- `write_use_section`, 99-108
  forEach (fun s => line (%s"use " ++ s.id.display)) (m.shapesList.filter fun s => s.isUnresolved && s.traits.isEmpty), line [],
  -- `write_shape_statements`, 110-284
  forEach (shape f ns) (m.shapesList.filter fun s => identEq s.id.ns ns)]

end Idl

/-! ### atelier-describe/src/graphml/writer.rs -/

namespace Graph

/-- `edge_id`, atelier-describe/src/graphml/writer.rs:456-460, and what is done with the id. -/
def edgeId (checked : Bool) (f : Str → Writer UInt16) : Writer UInt16 := ⟨fun k r =>
  if checked && r.mind == 65535 then (r, .error (.own .panic))
  else (f (%s"e" ++ showNat r.mind.toNat)).run k { r with mind := r.mind + 1 }⟩

/-- `node`, atelier-describe/src/graphml/writer.rs:412-422. -/
def node (id : ShapeID) (type : Str) : Writer UInt16 := seq [
  line (%s"        <node id=\"" ++ id.display ++ %s"\">"),
  line (%s"            <data key=\"type\">" ++ type ++ %s"</data>"),
  line %s"        </node>"]

/-- `member`, atelier-describe/src/graphml/writer.rs:424-439. -/
def member (checked : Bool) (source target : ShapeID) (name : Str) : Writer UInt16 := edgeId checked fun e => seq [
  line (%s"        <edge id=\"" ++ e ++ %s"\" source=\"" ++ source.display ++ %s"\" target=\"" ++ target.display ++ %s"\">"),
  line (%s"            <data key=\"member\">" ++ name ++ %s"</data>"),
  line %s"        </edge>"]

/-- `traits`, atelier-describe/src/graphml/writer.rs:441-454. -/
def traits (checked : Bool) (id : ShapeID) (ts : Traits) : Writer UInt16 :=
  forEach (fun t => edgeId checked fun e => seq [
    line (%s"        <edge id=\"" ++ e ++ %s"\" source=\"" ++ id.display ++ %s"\" target=\"" ++ t.display ++ %s"\">"),
    line %s"            <data key=\"trait\">true</data>",
    line %s"        </edge>"]) (AMap.keys ts)

/-- `impl ModelVisitor for GraphMLVisitor`, atelier-describe/src/graphml/writer.rs:247-409. -/
def visitor {σ ε : Type} (checked : Bool) (k : Sink σ ε) : ModelVisitor (Run UInt16 σ) (Fault ε) where
  metadata _ _ := pass.run k
  simpleShape id ts s := (seq [node id s.display, traits checked id ts]).run k
  list id ts m := (seq [node id %s"list", traits checked id ts, member checked id m.target %s"member"]).run k
  set id ts m := (seq [node id %s"set", traits checked id ts, member checked id m.target %s"member"]).run k
  map id ts m := (seq [node id %s"map", traits checked id ts, member checked id m.1.target %s"key",
    member checked id m.2.target %s"value"]).run k
  structure_ id ts ms := (seq [node id %s"structure", traits checked id ts,
    forEach (fun m => member checked id m.target m.id) (AMap.values ms)]).run k
  union id ts ms := (seq [node id %s"union", traits checked id ts,
    forEach (fun m => member checked id m.target m.id) (AMap.values ms)]).run k
  operation id ts o := (seq [node id %s"operation", traits checked id ts,
    ifSome (fun t => member checked id t %s"input") o.input, ifSome (fun t => member checked id t %s"output") o.output,
    forEach (fun t => member checked id t %s"errors") o.errors]).run k
  service id ts s := (seq [
    line (%s"        <node id=\"" ++ id.display ++ %s"\">"),
    line %s"            <data key=\"type\">service</data>",
    line (%s"            <data key=\"version\">" ++ s.version ++ %s"</data>"),
    line %s"        </node>",
    traits checked id ts,
    forEach (fun t => member checked id t %s"operations") s.operations,
    forEach (fun t => member checked id t %s"resources") s.resources]).run k
  resource id ts r := (seq [node id %s"resource", traits checked id ts,
    ifSome (fun t => member checked id t %s"create") r.create, ifSome (fun t => member checked id t %s"put") r.put,
    ifSome (fun t => member checked id t %s"read") r.read, ifSome (fun t => member checked id t %s"update") r.update,
    ifSome (fun t => member checked id t %s"delete") r.delete, ifSome (fun t => member checked id t %s"list") r.list,
    forEach (fun t => member checked id t %s"operations") r.operations,
    forEach (fun t => member checked id t %s"collectionOperations") r.collectionOperations,
    forEach (fun t => member checked id t %s"resources") r.resources]).run k
  unresolvedId _ _ := pass.run k
  memberVisitor _ := none

/-- `write_keys`, atelier-describe/src/graphml/writer.rs:209-242. -/
def keys : Writer UInt16 := seq [
  line %s"    <key id=\"smithy-version\" for=\"graph\" attr.name=\"smithy.version\" attr.type=\"string\"/>",
  line %s"    <key id=\"type\" for=\"node\" attr.name=\"type\" attr.type=\"string\"/>",
  line %s"    <key id=\"version\" for=\"node\" attr.name=\"version\" attr.type=\"string\"/>",
  line %s"    <key id=\"trait\" for=\"edge\" attr.name=\"trait\" attr.type=\"boolean\"/>",
  line %s"    <key id=\"member\" for=\"edge\" attr.name=\"member\" attr.type=\"string\">",
  line %s"        <default>member</default>",
  line %s"    </key>"]

/-- `write`, atelier-describe/src/graphml/writer.rs:166-205. -/
def write (checked : Bool) (m : Model) : Writer UInt16 := seq [
  line %s"<?xml version=\"1.0\" encoding=\"UTF-8\"?>",
  line %s"<graphml xmlns=\"http://graphml.graphdrawing.org/xmlns\"",
  line %s"    xmlns:xsi=\"http://www.w3.org/2001/XMLSchema-instance\"",
  line %s"    xsi:schemaLocation=\"http://graphml.graphdrawing.org/xmlns",
  line %s"        http://graphml.graphdrawing.org/xmlns/1.0/graphml.xsd\">",
  keys,
  line %s"    <graph id=\"model\" edgedefault=\"directed\">",
  line (%s"        <data key=\"smithy.version\">" ++ m.version.display ++ %s"</data>"),
  ⟨fun k => Visitor.walkModel m (visitor checked k)⟩,
  line %s"    </graph>",
  line %s"</graphml>"]

end Graph

/-! ### atelier-describe/src/plant_uml/writer.rs -/

namespace Uml

/-- `PlantUmlWriter::write_operation`, atelier-describe/src/plant_uml/writer.rs:358-390. -/
def operation (operId : ShapeID) (m : Model) (otherName : Option Str) : Writer Unit :=
  match m.shape operId with
  | none => fail .panic
  | some operation =>
    match operation.body with
    | .operation o => line (%s"        " ++ (match otherName with | none => operation.id.display | some name => name) ++ %s"(in: " ++
        (match o.input with | some i => PlantUml.typeString i m | none => []) ++ %s")" ++
        (match o.output with | some i => %s": " ++ PlantUml.typeString i m | none => []))
    | _ => fail .panic

/-- `PlantUmlWriter::write_class_traits`, atelier-describe/src/plant_uml/writer.rs:392-423; the notes it returns are
`(PlantUml.classTraits f shape.traits).2`. -/
def classTraits (f : Fmt) (shape : TopLevelShape) : Writer Unit :=
  let traits := (PlantUml.classTraits f shape.traits).1
  when (!traits.isEmpty) (seq [line (%s"    " ++ joinWith ['\n'] traits), line %s"        .."])

/-- `PlantUmlWriter::write_class_notes`, atelier-describe/src/plant_uml/writer.rs:425-442, from the `idx`-th note on. -/
def classNotes (f : Fmt) (id : ShapeID) (idx : Nat) : List Str → Writer Unit
  | [] => pass
  | note :: l => seq [
      if note.contains '\n' then seq [
        line (%s"    note as " ++ id.display ++ %s"_note_" ++ showNat idx), line (f.debug note), line %s"    end note"]
      else line (%s"    note " ++ f.debug note ++ %s" as " ++ id.display ++ %s"_note_" ++ showNat idx),
      line (%s"    " ++ id.display ++ %s" .. " ++ id.display ++ %s"_note_" ++ showNat idx),
      classNotes f id (idx + 1) l]

/-- `PlantUmlWriter::write_service`, atelier-describe/src/plant_uml/writer.rs:225-251. -/
def service (f : Fmt) (s : TopLevelShape) (body : Service) (m : Model) : Writer Unit := seq [
  line (%s"    class " ++ s.id.display ++ %s" <<service>> {"),
  classTraits f s,
  line (%s"        version: string = \"" ++ body.version ++ %s"\""),
  forEach (fun o => operation o m none) body.operations,
  line %s"    }",
  classNotes f s.id 0 (PlantUml.classTraits f s.traits).2,
  forEach (fun r => line (%s"    " ++ s.id.display ++ %s" *-- " ++ r.display)) body.resources,
  line []]

/-- `PlantUmlWriter::write_resource`, atelier-describe/src/plant_uml/writer.rs:253-302. -/
def resource (f : Fmt) (s : TopLevelShape) (body : Resource) (m : Model) : Writer Unit := seq [
  line (%s"    class " ++ s.id.display ++ %s" <<resource>> {"),
  classTraits f s,
  forEach (fun (e : Str × ShapeID) => line (%s"        " ++ e.1 ++ %s": " ++ e.2.display)) body.identifiers,
  ifSome (fun o => operation o m (some %s"create")) body.create,
  ifSome (fun o => operation o m (some %s"create")) body.put,
  ifSome (fun o => operation o m (some %s"create")) body.read,
  ifSome (fun o => operation o m (some %s"create")) body.update,
  ifSome (fun o => operation o m (some %s"create")) body.delete,
  ifSome (fun o => operation o m (some %s"create")) body.list,
  when (!body.operations.isEmpty) (seq [line %s"        ..operations..", forEach (fun o => operation o m none) body.operations]),
  when (!body.collectionOperations.isEmpty)
    (seq [line %s"        ..collectionOperations..", forEach (fun o => operation o m none) body.collectionOperations]),
  line %s"    }",
  classNotes f s.id 0 (PlantUml.classTraits f s.traits).2,
  forEach (fun r => line (%s"    " ++ s.id.display ++ %s" *-- " ++ r.display)) body.resources,
  line []]

/-- `PlantUmlWriter::write_class`, atelier-describe/src/plant_uml/writer.rs:304-332. -/
def class_ (f : Fmt) (s : TopLevelShape) (isUnion : Bool) (members : AMap Str MemberShape) : Writer Unit := seq [
  if AMap.contains s.traits PlantUml.traitTrait then line (%s"    annotation " ++ s.id.display ++ %s" {")
  else if AMap.contains s.traits PlantUml.errorTrait then line (%s"    class " ++ s.id.display ++ %s" <<error>> {")
  else if isUnion then line (%s"    class " ++ s.id.display ++ %s" <<union>> {")
  else line (%s"    class " ++ s.id.display ++ %s" {"),
  classTraits f s,
  forEach (fun (x : MemberShape) => line (%s"        " ++ x.id ++ %s": " ++ x.target.display)) (AMap.values members),
  line %s"    }",
  classNotes f s.id 0 (PlantUml.classTraits f s.traits).2,
  line []]

/-- `PlantUmlWriter::write_data_type`, atelier-describe/src/plant_uml/writer.rs:334-356. -/
def dataType (expand : Bool) (f : Fmt) (s : TopLevelShape) (simple : Simple) : Writer Unit := seq [
  line (%s"    class " ++ s.id.display ++ %s" <<dataType>> {"),
  classTraits f s,
  line %s"    }",
  line (%s"    " ++ joinWith ['\n'] (PlantUml.classTraits f s.traits).2),
  when expand (line (%s"    smithy.api." ++ simple.display ++ %s" <|-- " ++ s.id.display)),
  line []]

/-- `PlantUmlWriter::write_smithy_model`, atelier-describe/src/plant_uml/writer.rs:201-223. -/
def smithyModel : Writer Unit := seq [
  line %s"package smithy.api {",
  forEach (fun (s : Simple) => line (%s"    class " ++ s.display ++ %s" <<primitive>> { }"))
    [.blob, .boolean, .document, .string, .byte, .short, .integer, .long, .float, .double, .bigInteger, .bigDecimal, .timestamp],
  line %s"}",
  line []]

/-- The `match` of `PlantUmlWriter::write`, atelier-describe/src/plant_uml/writer.rs:171-179. -/
def element (expand : Bool) (f : Fmt) (m : Model) (s : TopLevelShape) : Writer Unit :=
  match s.body with
  | .simple x => dataType expand f s x
  | .service x => service f s x m
  | .resource x => resource f s x m
  | .struct ms => class_ f s false ms
  | .union ms => class_ f s true ms
  | _ => pass

/-- `PlantUmlWriter::write`, atelier-describe/src/plant_uml/writer.rs:157-189. -/
def write (expand : Bool) (f : Fmt) (m : Model) : Writer Unit := seq [
  line %s"@startuml",
  line [],
  line %s"hide empty members",
  line [],
  when expand smithyModel,
  forEach (fun ns => seq [
    line (%s"package " ++ ns ++ %s" {"),
    line [],
    forEach (element expand f m) m.shapesList,
    line %s"}",
    when expand (line (ns ++ %s" ..> smithy.api"))]) m.namespaces,
  line [],
  line %s"@enduml"]

end Uml
end Verif.Targets
