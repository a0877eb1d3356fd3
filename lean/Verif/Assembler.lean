/-
Model of atelier-assembler/src/lib.rs.
-/
import Verif.Model

namespace Verif

/-- `FileType`, atelier-assembler/src/lib.rs:84-88. A `FileReader` (79) is a function of the content of the file
(`Content` is whatever a file holds). -/
structure FileType (Content : Type) where
  displayName : Str
  mimeType : Option Str
  reader : Content → Except Err Model

/-- `FileTypeRegistry`, atelier-assembler/src/lib.rs:96-99. -/
structure Registry (Content : Type) where
  byExtension : AMap Str (FileType Content)
  byMimeType : AMap Str (FileType Content)

namespace Registry
variable {C : Type}

/-- `FileTypeRegistry::empty`, atelier-assembler/src/lib.rs:220-225. -/
def empty : Registry C := ⟨[], []⟩

/-- `FileTypeRegistry::register`, atelier-assembler/src/lib.rs:230-239. `to_lowercase` is `lower` (ASCII letters). -/
def register (r : Registry C) (ft : FileType C) (ext : Str) : Registry C :=
  let r' := { r with byExtension := AMap.insert r.byExtension (lower ext) ft }
  match ft.mimeType with
  | some mt => { r' with byMimeType := AMap.insert r'.byMimeType (lower mt) ft }
  | none => r'

/-- `FileTypeRegistry::register_all`, atelier-assembler/src/lib.rs:244-250. -/
def registerAll (r : Registry C) (ft : FileType C) (exts : List Str) : Registry C :=
  exts.foldl (fun r ext => { r with byExtension := AMap.insert r.byExtension (lower ext) ft }) r

/-- `FileTypeRegistry::contains`, atelier-assembler/src/lib.rs:255-257. -/
def contains (r : Registry C) (ext : Str) : Bool := AMap.contains r.byExtension (lower ext)

/-- `FileTypeRegistry::get`, atelier-assembler/src/lib.rs:262-264. -/
def get (r : Registry C) (ext : Str) : Option (FileType C) := AMap.get r.byExtension (lower ext)

/-- `FileTypeRegistry::get_by_mime_type`, atelier-assembler/src/lib.rs:269-271. -/
def getByMimeType (r : Registry C) (mt : Str) : Option (FileType C) := AMap.get r.byMimeType (lower mt)

/-- `FileTypeRegistry::remove`, atelier-assembler/src/lib.rs:276-278. -/
def remove (r : Registry C) (ext : Str) : Registry C := { r with byExtension := AMap.erase r.byExtension (lower ext) }

/-- `Default for FileTypeRegistry`, atelier-assembler/src/lib.rs:192-214, given the two readers. -/
def default (json smithy : C → Except Err Model) : Registry C :=
  (empty.register ⟨%s"JSON AST", none, json⟩ %s"json").register ⟨%s"Smithy IDL", none, smithy⟩ %s"smithy"

end Registry

/-- A path: its components. -/
abbrev Path := List Str

/-- `Path::extension` of the standard library on the last component: what follows the last `.`, unless there is no `.`
or it is the first character. (`..` does not occur as the name of a file.) -/
def fileExtension (name : Str) : Option Str :=
  match splitFirst '.' name.reverse with
  | none => none
  | some (_, []) => none
  | some (ext, _ :: _) => some ext.reverse

/-- What the operating system says is found at a path: a file (which can be opened, with its content, or not), a
directory (which can be listed, or not), or anything else (including nothing). Symbolic links are followed by the
operating system; links that form a cycle are not modelled. -/
inductive Node (Content : Type) where
  | file (content : Option Content)
  | dir (entries : Option (List (Str × Node Content)))
  | other

/-- `ModelAssembler`, atelier-assembler/src/lib.rs:110-113: `paths` in the order in which the `HashSet` is enumerated. -/
structure Assembler (Content : Type) where
  fileTypes : Registry Content
  paths : List Path

namespace Assembler
variable {C : Type}

/-- `push` and `push_str`, atelier-assembler/src/lib.rs:364-378. -/
def push (a : Assembler C) (p : Path) : Assembler C := if p ∈ a.paths then a else { a with paths := a.paths ++ [p] }

/-- `is_empty`, atelier-assembler/src/lib.rs:383-385. -/
def isEmpty (a : Assembler C) : Bool := a.paths.isEmpty

/-- `Path::extension`. -/
def extensionOf (p : Path) : Option Str := p.getLast?.bind fileExtension

/-- The file branch of `expand_path`, atelier-assembler/src/lib.rs:426-433. -/
def expandFile (r : Registry C) (p : Path) (c : Option C) : List (Path × Option C) :=
  match extensionOf p with
  | some ext => if r.contains ext then [(p, c)] else []
  | none => []

mutual
  /-- `expand_path`, atelier-assembler/src/lib.rs:424-441, returning what it pushes; with each path goes what is there to
  be read (the file system does not change meanwhile). `read_dir(path).unwrap()` panics. -/
  def expandPath (r : Registry C) (p : Path) : Node C → Except Err (List (Path × Option C))
    | .file c => .ok (expandFile r p c)
    | .dir none => .error .panic
    | .dir (some es) => expandEntries r p es
    | .other => .ok []
  termination_by structural x => x
  /-- The loop at atelier-assembler/src/lib.rs:436-439. -/
  def expandEntries (r : Registry C) (p : Path) : List (Str × Node C) → Except Err (List (Path × Option C))
    | [] => .ok []
    | e :: es =>
      match expandEntry r p e with
      | .error x => .error x
      | .ok a =>
        match expandEntries r p es with
        | .error x => .error x
        | .ok b => .ok (a ++ b)
  termination_by structural x => x
  /-- The body of that loop: `entry.path()` is the directory's path followed by the name. -/
  def expandEntry (r : Registry C) (p : Path) : Str × Node C → Except Err (List (Path × Option C))
    | (n, x) => expandPath r (p ++ [n]) x
  termination_by structural x => x
end

/-- The loop of `expand_file_paths`, atelier-assembler/src/lib.rs:405-412. -/
def expandAll (r : Registry C) (fs : Path → Node C) : List Path → Except Err (List (Path × Option C))
  | [] => .ok []
  | p :: ps => do
    let a ← expandPath r p (fs p)
    let b ← expandAll r fs ps
    return a ++ b

/-- `read_model`, atelier-assembler/src/lib.rs:443-458; `File::open(path).unwrap()` panics. -/
def readModel (r : Registry C) (p : Path) (c : Option C) : Except Err Model :=
  match extensionOf p with
  | some ext =>
    match r.get (lower ext) with
    | some ft =>
      match c with
      | some content => ft.reader content
      | none => .error .panic
    | none => .error (.invalidRepresentation %s"unknown")
  | none => .error (.invalidRepresentation %s"none")

/-- `.map(|file_name| value.read_model(&file_name)).collect()`, atelier-assembler/src/lib.rs:313-317: stops at the first
error. -/
def readAll (r : Registry C) : List (Path × Option C) → Except Err (List Model)
  | [] => .ok []
  | f :: fs => do
    let m ← readModel r f.1 f.2
    let ms ← readAll r fs
    return m :: ms

/-- The loop at atelier-assembler/src/lib.rs:331-333. -/
def mergeAll (merged : Model) : List Model → Except Err Model
  | [] => .ok merged
  | m :: ms =>
    match merged.merge m with
    | (merged', .ok ()) => mergeAll merged' ms
    | (_, .error e) => .error e

/-- `TryFrom<&mut ModelAssembler> for Model`, atelier-assembler/src/lib.rs:305-341 (and 296-303). -/
def tryFrom (a : Assembler C) (fs : Path → Node C) : Except Err Model :=
  if a.isEmpty then .ok (Model.new .v10)
  else do
    let files ← expandAll a.fileTypes fs a.paths
    let models ← readAll a.fileTypes files
    match models with
    | [] => .ok (Model.new .v10)
    | m :: ms => mergeAll m ms

end Assembler
end Verif
