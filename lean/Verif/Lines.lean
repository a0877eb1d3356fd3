/-
Model of atelier-core/src/io/lines.rs (the line-oriented form).
-/
import Verif.Model

namespace Verif

/-- What the standard library's formatting contributes and is not modelled: `Display for f64` (used through `Display for
Number`, atelier-core/src/model/values.rs:99-106) and `Debug for str` (quoting, `{:?}` at atelier-core/src/io/lines.rs:270). -/
structure Fmt where
  float : F64 → Str
  debug : Str → Str

/-- `Display` of integers: decimal notation. -/
def showInt (n : Int) : Str := (toString n).toList

/-- `Display` of `usize`: decimal notation. -/
def showNat (n : Nat) : Str := (toString n).toList

/-- `Display for bool`. -/
def showBool : Bool → Str
  | true => %s"true"
  | false => %s"false"

/-- `Display for Number`, atelier-core/src/model/values.rs:99-106. -/
def showNumber (f : Fmt) : Number → Str
  | .integer n => showInt n
  | .float x => f.float x

/-- `<=` on `String` as used by `sort()` (atelier-core/src/io/lines.rs:188): bytewise lexicographic, which for UTF-8 is
lexicographic by code point. -/
def strLe : Str → Str → Bool
  | [], _ => true
  | _ :: _, [] => false
  | a :: as, b :: bs => decide (a.toNat < b.toNat) || (a == b && strLe as bs)

namespace Lines

/-! The functions push onto a `&mut Vec<String>`; they are modelled as returning what they push. -/

mutual
  /-- `value_into_strings`, atelier-core/src/io/lines.rs:363-390. -/
  def ofValue (f : Fmt) (pre : Str) : Value → List Str
    | .array vs => if vs.isEmpty then [pre ++ %s"[]"] else ofArray f pre 0 vs
    | .object vs => if vs.isEmpty then [pre ++ %s"{}"] else ofObject f pre vs
    | .number n => [pre ++ showNumber f n]
    | .boolean b => [pre ++ showBool b]
    | .string s => [pre ++ '"' :: s ++ ['"']]
    | .none => [pre ++ %s"()"]
  termination_by structural x => x
  /-- The loop at atelier-core/src/io/lines.rs:369-372; `i` is the index of the first element. -/
  def ofArray (f : Fmt) (pre : Str) (i : Nat) : List Value → List Str
    | [] => []
    | v :: vs => ofValue f (pre ++ '[' :: showNat i ++ %s"]=") v ++ ofArray f pre (i + 1) vs
  termination_by structural x => x
  /-- The loop at atelier-core/src/io/lines.rs:379-382. -/
  def ofObject (f : Fmt) (pre : Str) : List (Str × Value) → List Str
    | [] => []
    | e :: es => ofEntry f pre e ++ ofObject f pre es
  termination_by structural x => x
  /-- One iteration of it. -/
  def ofEntry (f : Fmt) (pre : Str) : Str × Value → List Str
    | (k, v) => ofValue f (pre ++ '{' :: k ++ %s"}=") v
  termination_by structural x => x
end

/-- One iteration of `traits_into_strings`, atelier-core/src/io/lines.rs:405-416. -/
def ofTrait (f : Fmt) (pre : Str) (e : ShapeID × TraitValue) : List Str :=
  match e.2 with
  | none => [pre ++ e.1.display]
  | some v => ofValue f (pre ++ e.1.display ++ %s"<=") v

/-- `traits_into_strings`, atelier-core/src/io/lines.rs:399-418. -/
def ofTraits (f : Fmt) (pre : Str) (ts : Traits) : List Str := ts.flatMap (ofTrait f pre)

/-- `member_into_strings`, atelier-core/src/io/lines.rs:392-397. -/
def ofMember (f : Fmt) (pre : Str) (m : MemberShape) : List Str :=
  (pre ++ %s"::" ++ m.id ++ %s"=>" ++ m.target.display) ::
    ofTraits f (pre ++ %s"::" ++ m.id ++ %s"::trait::") m.traits

/-- `member_target`, atelier-core/src/io/lines.rs:359-361. -/
def memberTarget (name : Str) (id : ShapeID) : Str := %s"::" ++ name ++ %s"=>" ++ id.display

/-- `for id in xs { push(prefix + member_target(name, id)) }`, e.g. atelier-core/src/io/lines.rs:276-278. -/
def ofTargets (pre name : Str) (ids : List ShapeID) : List Str := ids.map fun id => pre ++ memberTarget name id

/-- `if let Some(id) = x { push(prefix + member_target(name, id)) }`, e.g. atelier-core/src/io/lines.rs:293-295 (a `for`
over the `Option` at 322-324 and 331-333). -/
def ofTarget (pre name : Str) (id : Option ShapeID) : List Str := ofTargets pre name id.toList

/-- The shape type given to `line_prefix` at atelier-core/src/io/lines.rs:227, 232, 238, 244, 251, 259, 267, 291, 305,
350. -/
def typeName : ShapeKind → Str
  | .simple s => s.display
  | .list _ => %s"list"
  | .set _ => %s"set"
  | .map _ _ => %s"map"
  | .struct _ => %s"structure"
  | .union _ => %s"union"
  | .service _ => %s"service"
  | .operation _ => %s"operation"
  | .resource _ => %s"resource"
  | .unresolved => %s"unresolved"

/-- `line_prefix`, atelier-core/src/io/lines.rs:221-223. -/
def linePrefix (s : TopLevelShape) : Str := typeName s.body ++ %s"::" ++ s.id.display

/-- The lines pushed after the first one in each arm of the `match`, atelier-core/src/io/lines.rs:225-354. -/
def ofKind (f : Fmt) (pre : Str) : ShapeKind → List Str
  | .simple _ => []
  | .list m => ofMember f pre m
  | .set m => ofMember f pre m
  | .map k v => ofMember f pre k ++ ofMember f pre v
  | .struct ms => (AMap.values ms).flatMap (ofMember f pre)
  | .union ms => (AMap.values ms).flatMap (ofMember f pre)
  | .service s =>
    (pre ++ %s"::version<=" ++ f.debug s.version) ::
      (ofTargets pre %s"operation" s.operations ++ ofTargets pre %s"resource" s.resources ++
        s.renames.map fun e => pre ++ %s"::rename::" ++ e.1.display ++ %s"<=" ++ e.2)
  | .operation o => ofTarget pre %s"input" o.input ++ ofTarget pre %s"output" o.output ++ ofTargets pre %s"error" o.errors
  | .resource r =>
    (r.identifiers.map fun e => pre ++ %s"::identifier" ++ memberTarget e.1 e.2) ++
      ofTarget pre %s"create" r.create ++ ofTarget pre %s"put" r.put ++ ofTarget pre %s"read" r.read ++
      ofTarget pre %s"update" r.update ++ ofTarget pre %s"delete" r.delete ++ ofTarget pre %s"list" r.list ++
      ofTargets pre %s"operation" r.operations ++ ofTargets pre %s"collection_operation" r.collectionOperations ++
      ofTargets pre %s"resource" r.resources
  | .unresolved => []

/-- `shape_into_strings`, atelier-core/src/io/lines.rs:224-357. -/
def ofShape (f : Fmt) (s : TopLevelShape) : List Str :=
  linePrefix s :: (ofKind f (linePrefix s) s.body ++ ofTraits f (linePrefix s ++ %s"::trait::") s.traits)

/-- One iteration over the metadata, atelier-core/src/io/lines.rs:178-184. -/
def ofMeta (f : Fmt) (e : Str × Value) : List Str := ofValue f (%s"meta::" ++ e.1 ++ %s"<=") e.2

/-- Everything pushed by `make_line_oriented_form` before sorting, atelier-core/src/io/lines.rs:176-187. -/
def unsorted (f : Fmt) (m : Model) : List Str := m.metadata.flatMap (ofMeta f) ++ m.shapesList.flatMap (ofShape f)

end Lines

/-- `make_line_oriented_form`, atelier-core/src/io/lines.rs:176-190 (`sort` is a stable sort; equal strings are
indistinguishable). -/
def lineForm (f : Fmt) (m : Model) : List Str := (Lines.unsorted f m).mergeSort strLe

/-- `LineOrientedWriter::write`, atelier-core/src/io/lines.rs:203-208: each line followed by a newline. -/
def writeLines (f : Fmt) (m : Model) : Str := (lineForm f m).flatMap fun l => l ++ ['\n']

end Verif
