/-
Model of atelier-smithy/src/writer.rs: the text that `SmithyWriter::write` produces. Errors of the writer written to are
not modelled; maps are enumerated in the order of their association lists.
-/
import Verif.Lines
import Verif.Builder

namespace Verif.IdlWriter

/-- The end of `writeln!`. -/
abbrev nl : Str := ['\n']

mutual
  /-- `write_value`, atelier-smithy/src/writer.rs:312-347. The separator is written after every element but the last. -/
  def value (f : Fmt) (top : Bool) : Value → Str
    | .array vs => '[' :: joinWith %s", " (items f vs) ++ [']']
    | .object es => (if top then [] else ['{']) ++ joinWith %s", " (entries f es) ++ (if top then [] else ['}'])
    | .number n => showNumber f n
    | .boolean b => showBool b
    | .string s => f.debug s
    | .none => []
  termination_by structural x => x
  /-- The loop over the elements, atelier-smithy/src/writer.rs:317-322. -/
  def items (f : Fmt) : List Value → List Str
    | [] => []
    | v :: vs => value f false v :: items f vs
  termination_by structural x => x
  /-- The loop over the entries, atelier-smithy/src/writer.rs:330-336. -/
  def entries (f : Fmt) : List (Str × Value) → List Str
    | [] => []
    | e :: es => entry f e :: entries f es
  termination_by structural x => x
  /-- A key and a value, atelier-smithy/src/writer.rs:331-332. -/
  def entry (f : Fmt) : Str × Value → Str
    | (k, v) => k ++ %s": " ++ value f false v
  termination_by structural x => x
end

/-- The id of a trait, atelier-smithy/src/writer.rs:293-299: the prelude's traits and those of the namespace are written
without a namespace. -/
def traitName (ns : Str) (id : ShapeID) : Str :=
  if identEq id.ns ns || identEq id.ns preludeNs then id.name else id.display

/-- `write_trait`, atelier-smithy/src/writer.rs:286-310. -/
def trait (f : Fmt) (ns pre : Str) (t : ShapeID × TraitValue) : Str :=
  pre ++ '@' :: traitName ns t.1 ++
    (match t.2 with
     | none => nl
     | some v => '(' :: value f true v ++ ')' :: nl)

/-- The loops over traits, atelier-smithy/src/writer.rs:117-119, 367-369. -/
def traits (f : Fmt) (ns pre : Str) (ts : Traits) : Str := ts.flatMap (trait f ns pre)

/-- `write_member`, atelier-smithy/src/writer.rs:361-378. -/
def member (f : Fmt) (ns pre : Str) (m : MemberShape) : Str :=
  traits f ns pre m.traits ++ pre ++ m.id ++ %s": " ++ m.target.name ++ nl

/-- `write_members`, atelier-smithy/src/writer.rs:349-359. -/
def members (f : Fmt) (ns pre : Str) (ms : AMap Str MemberShape) : Str := (AMap.values ms).flatMap (member f ns pre)

/-- `writeln!(w, "    {}: {}", key, text)`, atelier-smithy/src/writer.rs:127, 132, 137-143, 188, 191, 217-232. -/
def line (key text : Str) : Str := %s"    " ++ key ++ %s": " ++ text ++ nl

/-- `if let Some(id) = .. { writeln!(w, "    {}: {}", key, id.shape_name()) }`, atelier-smithy/src/writer.rs:187-192,
216-233. -/
def optLine (key : Str) : Option ShapeID → Str
  | none => []
  | some id => line key id.name

/-- `if has_.. { writeln!(w, "    {}: [{}]", key, names.join(", ")) }`, atelier-smithy/src/writer.rs:159-182, 193-204,
234-269. -/
def namesLine (key : Str) (ids : List ShapeID) : Str :=
  if ids.isEmpty then [] else line key ('[' :: joinWith %s", " (ids.map (·.name)) ++ [']'])

/-- The first line of a statement, `writeln!(w, "{} {} {{", keyword, name)`. -/
def opening (keyword name : Str) : Str := keyword ++ ' ' :: name ++ %s" {" ++ nl

/-- `writeln!(w, "}}")`. -/
def closing : Str := '}' :: nl

/-- The identifiers of a resource, atelier-smithy/src/writer.rs:209-215. -/
def identifiers (ids : AMap Str ShapeID) : Str :=
  if ids.isEmpty then []
  else %s"    identifiers: {" ++ nl ++ ids.flatMap (fun e => %s"        " ++ e.1 ++ %s": " ++ e.2.name ++ nl) ++ %s"    }" ++ nl

/-- The `match` on the body, atelier-smithy/src/writer.rs:121-280. -/
def statement (f : Fmt) (ns : Str) (s : TopLevelShape) : Str :=
  match s.body with
  | .simple st => st.display ++ ' ' :: s.id.name ++ nl
  | .list m => opening %s"list" s.id.name ++ line %s"member" m.target.display ++ closing
  | .set m => opening %s"set" s.id.name ++ line %s"member" m.target.display ++ closing
  | .map k v => opening %s"map" s.id.name ++ line %s"key" k.target.name ++ line %s"value" v.target.name ++ closing
  | .struct ms => opening %s"structure" s.id.name ++ members f ns %s"    " ms ++ closing
  | .union ms => opening %s"union" s.id.name ++ members f ns %s"    " ms ++ closing
  | .service x => opening %s"service" s.id.name ++ line %s"version" (f.debug x.version) ++
      namesLine %s"operations" x.operations ++ namesLine %s"resources" x.resources ++ closing
  | .operation x => opening %s"operation" s.id.name ++ optLine %s"input" x.input ++ optLine %s"output" x.output ++
      namesLine %s"errors" x.errors ++ closing
  | .resource x => opening %s"resource" s.id.name ++ identifiers x.identifiers ++ optLine %s"create" x.create ++
      optLine %s"put" x.put ++ optLine %s"read" x.read ++ optLine %s"update" x.update ++ optLine %s"delete" x.delete ++
      optLine %s"list" x.list ++ namesLine %s"operations" x.operations ++
      namesLine %s"collectionOperations" x.collectionOperations ++ namesLine %s"resources" x.resources ++ closing
  | .unresolved => s.traits.flatMap fun t => %s"apply " ++ s.id.display ++ ' ' :: trait f ns [] t

/-- One round of the loop of `write_shape_statements`, atelier-smithy/src/writer.rs:116-281. -/
def shape (f : Fmt) (ns : Str) (s : TopLevelShape) : Str :=
  (if s.body.isUnresolved then [] else traits f ns [] s.traits) ++ statement f ns s ++ nl

/-- `write_shape_statements`, atelier-smithy/src/writer.rs:110-284. -/
def shapes (f : Fmt) (ns : Str) (m : Model) : Str :=
  (m.shapesList.filter fun s => identEq s.id.ns ns).flatMap (shape f ns)

/-- `write_use_section`, atelier-smithy/src/writer.rs:99-108. -/
def uses (m : Model) : Str :=
  (m.shapesList.filter fun s => s.isUnresolved && s.traits.isEmpty).flatMap (fun s => %s"use " ++ s.id.display ++ nl) ++ nl

/-- `write_namespace_statement`, atelier-smithy/src/writer.rs:93-97. -/
def namespaceStatement (ns : Str) : Str := %s"namespace " ++ ns ++ nl ++ nl

/-- `write_metadata_section`, atelier-smithy/src/writer.rs:76-86. -/
def metadata (f : Fmt) (m : Model) : Str :=
  if m.hasMetadata then
    m.metadata.flatMap (fun e => %s"metadata " ++ '"' :: e.1 ++ %s"\" = " ++ value f true e.2 ++ nl) ++ nl
  else []

/-- `write_control_section`, atelier-smithy/src/writer.rs:64-74. -/
def control (m : Model) : Str := %s"$version: " ++ '"' :: m.version.display ++ '"' :: nl ++ nl

end IdlWriter

/-- `ModelWriter for SmithyWriter`, atelier-smithy/src/writer.rs:48-54: the text written. -/
def writeIdl (f : Fmt) (ns : Str) (m : Model) : Str :=
  IdlWriter.control m ++ (IdlWriter.metadata f m ++ (IdlWriter.namespaceStatement ns ++ (IdlWriter.uses m ++ IdlWriter.shapes f ns m)))

end Verif
