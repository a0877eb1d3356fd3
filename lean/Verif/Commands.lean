/-
Model of the command line program: cargo-atelier/src/{bin/main,lib,actions,report}.rs, with atelier-lib/src/actions.rs and the functions for
files in atelier-core/src/io/mod.rs. Not modelled: the parsing of arguments by structopt, logging, and what is on the standard output when the
program panics half way through writing (the text of each writer is written at once).
-/
import Verif.Assembler
import Verif.Actions
import Verif.Json
import Verif.Idl
import Verif.IdlWriter
import Verif.PlantUml
import Verif.Describe
import Verif.Tables

namespace Verif.Cli

/-- The styles of the crate `colored` that cargo-atelier/src/report.rs:45-70 uses. -/
structure Paint where
  normal : Str → Str
  yellow : Str → Str
  brightRed : Str → Str
  bold : Str → Str
  underline : Str → Str
  dimmed : Str → Str

/-- What the program gets from other crates and from the system. `C` is what files hold, `F` are the output formats of `somedoc`. -/
structure Outside (C F : Type) where
  /-- `serde_json::from_reader`; `none` is an error. -/
  parseJson : C → Option Json
  /-- `read_to_string`; `none` is an error (bytes that are not UTF-8). -/
  utf8 : C → Option Str
  /-- The bytes of a text. -/
  encode : Str → C
  flt : Str → Option F64
  enum : List ShapeID → List ShapeID
  fmt : Fmt
  heck : Heck
  /-- `serde_json::to_writer_pretty`. -/
  prettyJson : Json → Str
  /-- `somedoc::write::write_document`. -/
  render : F → Describe.Document → Str
  /-- Whether `source()` of the error that `write_document` returns for an I/O error is something. -/
  documentErrorsChained : Bool
  paint : Paint
  /-- The order in which the `HashSet` of the assembler is enumerated. -/
  order : List Path → List Path
  /-- Whether what is neither a file nor a directory can be opened. -/
  opensOther : Path → Bool
  /-- `format!("{:?}: {:?}", key, value)` of a text and a JSON value. -/
  debugEntry : Str → Json → Str

/-- The state of the system as far as the program changes it. -/
structure World (C : Type) where
  fs : Path → Node C
  stdout : Str

/-- Errors as `main` sees them: an error of the model crates, or one of the operating system; `chained` says whether `source()` is something. -/
inductive Failure where
  | model (e : Err)
  | io (chained : Bool)
  deriving DecidableEq

/-- Where a writer writes to: the standard output, or an open file. -/
inductive Target where
  | stdout
  | file (path : Path) (writable : Bool)

variable {C F : Type}

/-! ### The standard library -/

/-- Whether the operating system opens what is at the path. -/
def opens (o : Outside C F) (w : World C) (p : Path) : Bool :=
  match w.fs p with
  | .file (some _) => true
  | .file none => false
  | .dir (some _) => true
  | .dir none => false
  | .other => o.opensOther p

/-- `std::fs::File::open`: opens for reading only; an error if nothing is there. -/
def fileOpen (o : Outside C F) (w : World C) (p : Path) : Except Failure Target :=
  if opens o w p then .ok (.file p false) else .error (.io false)

/-- `std::io::Write::write_all`: to a file that is open for reading only, all but the empty text is an error. -/
def writeAll (o : Outside C F) (w : World C) (t : Target) (text : Str) : World C × Except Failure Unit :=
  match t with
  | .stdout => ({ w with stdout := w.stdout ++ text }, .ok ())
  | .file p true => ({ w with fs := fun q => if q = p then .file (some (o.encode text)) else w.fs q }, .ok ())
  | .file _ false => (w, if text.isEmpty then .ok () else .error (.io false))

/-! ### atelier-core/src/io/mod.rs -/

/-- `write_model_to_string`, atelier-core/src/io/mod.rs:98-103: a `ModelWriter` is a function that gives the text. -/
def writeModelToString (writer : Model → Except Err Str) (m : Model) : Except Err Str := writer m

/-- `write_model_to_file`, atelier-core/src/io/mod.rs:109-117. -/
def writeModelToFile (o : Outside C F) (w : World C) (writer : Model → Except Err Str) (m : Model) (p : Path) : World C × Except Failure Unit :=
  match fileOpen o w p with
  | .error e => (w, .error e)
  | .ok t =>
    match writer m with
    | .error e => (w, .error (.model e))
    | .ok text => writeAll o w t text

/-! ### atelier-lib/src/actions.rs -/

/-- `standard_model_lint`, atelier-lib/src/actions.rs:21-30. -/
def standardModelLint (h : Heck) (m : Model) (failFast : Bool) : Except Err (List Issue) :=
  (runActions m failFast [namingConventions h, unwelcomeTerms h]).2

/-- `standard_model_validation`, atelier-lib/src/actions.rs:35-44. -/
def standardModelValidation (m : Model) (failFast : Bool) : Except Err (List Issue) :=
  (runActions m failFast [noUnresolvedReferences, correctTypeReferences]).2

/-! ### cargo-atelier/src/report.rs -/

/-- `println!`. -/
def line (s : Str) : Str := s ++ ['\n']

/-- `report_issue_no_color`, cargo-atelier/src/report.rs:27-38. -/
def reportIssueNoColor (i : Issue) : Str :=
  line (%s"[" ++ i.level.display ++ %s"] " ++ i.message) ++
  line (%s"\tReported by " ++ i.reporter ++ %s" for element " ++ (match i.locus with | some id => id.display | none => []) ++ %s".") ++
  line []

/-- `report_issue`, cargo-atelier/src/report.rs:46-70 (with the feature `color`). -/
def reportIssue (p : Paint) (i : Issue) : Str :=
  line ((match i.level with
      | .info => p.normal %s"[info]"
      | .warning => p.yellow %s"[warning]"
      | .error => p.brightRed %s"[error]") ++ %s" " ++ p.bold i.message) ++
  line (p.dimmed (%s"\tReported by " ++ i.reporter ++
    (match i.locus with | some id => %s" on/for element `" ++ p.underline id.display ++ %s"`" | none => []) ++ %s".")) ++
  line []

/-- `report_action_issues`, cargo-atelier/src/report.rs:11-25: the text printed. -/
def reportActionIssues (p : Paint) (issues : List Issue) (color : Bool) : Str :=
  line [] ++
  if !issues.isEmpty then issues.flatMap fun i => if color then reportIssue p i else reportIssueNoColor i
  else line %s"No issues reported."

/-! ### cargo-atelier/src/actions.rs -/

/-- `JsonReader::read`, atelier-json/src/reader.rs:55-65, as a reader of files. A text that is not JSON is an error made by `chain_err`
(`Err.other`), whose `source()` is that of serde_json. -/
def jsonReader (o : Outside C F) (c : C) : Except Err Model :=
  match o.parseJson c with
  | none => .error (.other %s"An error occurred de-serializing a model")
  | some j => JsonReader.model j

/-- `SmithyReader::read`, atelier-smithy/src/reader.rs:37-41. An `io::Error` is given as an error that has no source either. -/
def smithyReader (o : Outside C F) (c : C) : Except Err Model :=
  match o.utf8 c with
  | none => .error (.deserialization %s"Smithy" %s"io" none)
  | some s => parseModel o.flt o.enum s

/-- `ModelAssembler::new`, atelier-assembler/src/lib.rs:348-358, with `include_search_path` (416-421): a `SearchPath` is a list of paths. -/
def newAssembler (r : Registry C) (searchPath : Option (List Path)) : Assembler C :=
  match searchPath with
  | none => ⟨r, []⟩
  | some ps => ps.foldl Assembler.push ⟨r, []⟩

/-- `assemble_model`, cargo-atelier/src/actions.rs:67-76. -/
def assembleModel (o : Outside C F) (fs : Path → Node C) (inputFiles : List Path) (searchPath : Option (List Path)) : Except Err Model :=
  let a := inputFiles.foldl Assembler.push (newAssembler (Registry.default (jsonReader o) (smithyReader o)) searchPath)
  ({ a with paths := o.order a.paths } : Assembler C).tryFrom fs

/-! #### What the JSON reader prints

The `println!` at atelier-json/src/reader.rs:310 prints a line on the standard output for every identifier of every resource that is read. The functions
below follow the control flow of the reader: they give the text printed up to the first error. -/

/-- The lines printed by the loop of `identifiers_hash`, atelier-json/src/reader.rs:309-314. -/
def identifierLines (o : Outside C F) : List (Str × Json) → Str
  | [] => []
  | e :: es =>
    line (o.debugEntry e.1 e.2) ++
    match JsonReader.identifierEntry e with
    | .error _ => []
    | .ok _ => identifierLines o es

/-- What `identifiers_hash`, atelier-json/src/reader.rs:302-327, prints. -/
def identifiersPrints (o : Outside C F) : Option Json → Str
  | some (.object ms) => identifierLines o ms
  | _ => []

/-- What `shape`, atelier-json/src/reader.rs:135-236, prints: only the resource branch, 194-196, does. -/
def shapePrints (o : Outside C F) (outer : Json) : Str :=
  match outer.get %s"type" with
  | some (.string s) =>
    match Simple.fromStr s with
    | .ok _ => []
    | .error _ => if s = %s"resource" then identifiersPrints o (outer.get %s"identifiers") else []
  | _ => []

/-- What the loop of `shapes`, atelier-json/src/reader.rs:120-130, prints. -/
def shapesPrint (o : Outside C F) : List (Str × Json) → Str
  | [] => []
  | e :: es =>
    match ShapeID.fromStr e.1 with
    | .error _ => []
    | .ok _ =>
      shapePrints o e.2 ++
      match JsonReader.shapeEntry e with
      | .error _ => []
      | .ok _ => shapesPrint o es

/-- What `model`, atelier-json/src/reader.rs:69-92, prints. -/
def modelPrints (o : Outside C F) : Json → Str
  | .object vs =>
    match JsonReader.version (AMap.get vs %s"smithy") with
    | .error _ => []
    | .ok v =>
      match JsonReader.metadata (AMap.get vs %s"metadata") with
      | .error _ => []
      | .ok md =>
        match (Model.new v).addAllMetadata md with
        | (_, .error _) => []
        | (_, .ok ()) =>
          match AMap.get vs %s"shapes" with
          | some (.object ss) => shapesPrint o ss
          | _ => []
  | _ => []

/-- What `JsonReader::read`, atelier-json/src/reader.rs:55-65, prints; a text that is not JSON is an error before anything is printed. -/
def jsonPrints (o : Outside C F) (c : C) : Str :=
  match o.parseJson c with
  | none => []
  | some j => modelPrints o j

/-- What `read_model`, atelier-assembler/src/lib.rs:443-458, prints: the reader for Smithy IDL prints nothing. -/
def filePrints (o : Outside C F) (p : Path) (c : Option C) : Str :=
  match Assembler.extensionOf p, c with
  | some ext, some content => if lower ext = %s"json" then jsonPrints o content else []
  | _, _ => []

/-- What the loop at atelier-assembler/src/lib.rs:313-317 prints. -/
def filesPrint (o : Outside C F) : List (Path × Option C) → Str
  | [] => []
  | f :: fs =>
    filePrints o f.1 f.2 ++
    match Assembler.readModel (Registry.default (jsonReader o) (smithyReader o)) f.1 f.2 with
    | .error _ => []
    | .ok _ => filesPrint o fs

/-- What `assemble_model`, cargo-atelier/src/actions.rs:67-76, prints. -/
def assemblyPrints (o : Outside C F) (fs : Path → Node C) (inputFiles : List Path) (searchPath : Option (List Path)) : Str :=
  let a := inputFiles.foldl Assembler.push (newAssembler (Registry.default (jsonReader o) (smithyReader o)) searchPath)
  match Assembler.expandAll a.fileTypes fs (o.order a.paths) with
  | .error _ => []
  | .ok files => filesPrint o files

/-- The match on `output_file`, cargo-atelier/src/actions.rs:84-87 and 137-140. -/
def openTarget (o : Outside C F) (w : World C) : Option Path → Except Failure Target
  | none => .ok .stdout
  | some p => fileOpen o w p

/-- `write_json`, cargo-atelier/src/actions.rs:145-149, with `JsonWriter::write` (atelier-json/src/writer.rs:88-98): errors get a source by `chain_err`. -/
def writeJson (o : Outside C F) (w : World C) (t : Target) (m : Model) : World C × Except Failure Unit :=
  match JsonWriter.modelToJson m with
  | .error e => (w, .error (.model e))
  | .ok j =>
    match writeAll o w t (o.prettyJson j) with
    | (w', .error _) => (w', .error (.io true))
    | r => r

/-- `write_smithy`, cargo-atelier/src/actions.rs:151-159. -/
def writeSmithy (o : Outside C F) (w : World C) (t : Target) (m : Model) (ns : Str) : World C × Except Failure Unit :=
  writeAll o w t (writeIdl o.fmt ns m)

/-- `write_uml`, cargo-atelier/src/actions.rs:161-165. -/
def writeUml (o : Outside C F) (w : World C) (t : Target) (m : Model) : World C × Except Failure Unit :=
  match PlantUml.write false o.fmt m with
  | .error e => (w, .error (.model e))
  | .ok text => writeAll o w t text

/-- `write_model`, cargo-atelier/src/actions.rs:78-109. -/
def writeModel (o : Outside C F) (w : World C) (m : Model) (outputFile : Option Path) (format : FileFormat) (ns : Option Str) :
    World C × Except Failure Unit :=
  match openTarget o w outputFile with
  | .error e => (w, .error e)
  | .ok t =>
    match format with
    | .json => writeJson o w t m
    | .smithy =>
      match ns with
      | some ns =>
        match NamespaceID.fromStr ns with
        | .error _ => (w, .error (.model .panic))
        | .ok ns => writeSmithy o w t m ns
      | none =>
        match m.namespaces with
        | [ns] => writeSmithy o w t m ns
        | _ => (w, .error (.model .panic))
    | .uml => writeUml o w t m

/-- `document_a_file`, cargo-atelier/src/actions.rs:130-143. -/
def documentAFile (o : Outside C F) (w : World C) (m : Model) (outputFile : Option Path) (format : F) : World C × Except Failure Unit :=
  match Describe.describeModel o.fmt m with
  | .error e => (w, .error (.model e))
  | .ok d =>
    match openTarget o w outputFile with
    | .error e => (w, .error e)
    | .ok t =>
      match writeAll o w t (o.render format d) with
      | (w', .error _) => (w', .error (.io o.documentErrorsChained))
      | r => r

/-- `Command`, cargo-atelier/src/lib.rs:18-23, with `TransformCommand` and `DocumentCommand` (32-46). A search path is the list of its paths. -/
inductive Command (F : Type) where
  | lint (files : List Path) (searchPath : Option (List Path)) (useColor : Bool)
  | validate (files : List Path) (searchPath : Option (List Path)) (useColor : Bool)
  | convert (files : List Path) (outputFile : Option Path) (outputFormat : FileFormat) (ns : Option Str) (searchPath : Option (List Path))
  | document (files : List Path) (outputFile : Option Path) (outputFormat : F) (searchPath : Option (List Path))

/-- How the program ends: well; after `main` printed the source of an error; by returning the error from `main`; or by a panic. -/
inductive Ending where
  | success
  | printedSource (f : Failure)
  | failed (f : Failure)
  | panicked

/-- The exit status of the process. -/
def Ending.status : Ending → Nat
  | .success => 0
  | .printedSource _ => 0
  | .failed _ => 1
  | .panicked => 101

/-- Whether `source()` of the error is something: error_chain gives that of `chain_err`, which the readers use for texts that are not JSON and
for numbers that are not readable (`Err.other`). -/
def Failure.chained : Failure → Bool
  | .model (.other _) => true
  | .model _ => false
  | .io c => c

/-- The `?` of `main` on a result, cargo-atelier/src/bin/main.rs:7, 10. -/
def failWith (e : Err) : Ending := if e = .panic then .panicked else .failed (.model e)

/-- The end of `main`, cargo-atelier/src/bin/main.rs:17-21: `source().unwrap()` panics if there is none. -/
def finish : World C × Except Failure Unit → World C × Ending
  | (w, .ok ()) => (w, .success)
  | (w, .error f) => (w, if f.chained then .printedSource f else .panicked)

/-- `lint_file`, `validate_file`, `convert_file_format` and `document_file` (cargo-atelier/src/actions.rs:25-61; `transform_file`, 111-128, is given no
function) with what `main` makes of their results (cargo-atelier/src/bin/main.rs:7-21), without what is printed while the model is assembled. -/
def runCommand (o : Outside C F) (w : World C) : Command F → World C × Ending
  | .lint files sp color =>
    match assembleModel o w.fs files sp with
    | .error e => (w, failWith e)
    | .ok m =>
      match standardModelLint o.heck m false with
      | .error e => (w, failWith e)
      | .ok issues => ({ w with stdout := w.stdout ++ reportActionIssues o.paint issues color }, .success)
  | .validate files sp color =>
    match assembleModel o w.fs files sp with
    | .error e => (w, failWith e)
    | .ok m =>
      match standardModelValidation m false with
      | .error e => (w, failWith e)
      | .ok issues => ({ w with stdout := w.stdout ++ reportActionIssues o.paint issues color }, .success)
  | .convert files out format ns sp =>
    match assembleModel o w.fs files sp with
    | .error e => finish (w, .error (.model e))
    | .ok m => finish (writeModel o w m out format ns)
  | .document files out format sp =>
    match assembleModel o w.fs files sp with
    | .error e => finish (w, .error (.model e))
    | .ok m => finish (documentAFile o w m out format)

/-- The arguments of a command that say what is assembled. -/
def Command.input : Command F → List Path × Option (List Path)
  | .lint files sp _ => (files, sp)
  | .validate files sp _ => (files, sp)
  | .convert files _ _ _ sp => (files, sp)
  | .document files _ _ sp => (files, sp)

/-- `main`, cargo-atelier/src/bin/main.rs:4-22, after the arguments are parsed. All commands begin by assembling the model. -/
def main (o : Outside C F) (w : World C) (c : Command F) : World C × Ending :=
  runCommand o { w with stdout := w.stdout ++ assemblyPrints o w.fs c.input.1 c.input.2 } c

/-- `check_command_line`, cargo-atelier/src/command_line.rs:168-179: the arguments, the first of which is the name of the program. -/
def checkCommandLine (args : List Str) : List Str :=
  match args with
  | prog :: command :: rest => if command = %s"atelier" then prog :: rest else args
  | _ => args

end Verif.Cli
