/-
Keyword tables: the `Display`/`FromStr` pairs of the workspace.
-/
import Verif.Identity

namespace Verif

deriving instance DecidableEq for Except

/-- A Rust `match s { "a" => x, ... }` over string literals: the first arm whose literal is `s`. -/
def matchArms {α : Type} (arms : List (Str × α)) (s : Str) : Option α := AMap.get arms s

/-- `Version`, atelier-core/src/lib.rs:277-280. -/
inductive Version where
  | v10
  deriving DecidableEq, Repr

/-- `Display for Version`, atelier-core/src/lib.rs:292-296. -/
def Version.display : Version → Str
  | .v10 => %s"1.0"

/-- `FromStr for Version`, atelier-core/src/lib.rs:298-308. -/
def Version.fromStr (s : Str) : Except Err Version :=
  if s = %s"1" ∨ s = %s"1.0" then .ok .v10 else .error (.invalidVersionNumber (some s))

/-- `Simple`, atelier-core/src/model/shapes/simple.rs:18-45. -/
inductive Simple where
  | blob
  | boolean
  | document
  | string
  | byte
  | short
  | integer
  | long
  | float
  | double
  | bigInteger
  | bigDecimal
  | timestamp
  deriving DecidableEq, Repr

/-- `Display for Simple`, atelier-core/src/model/shapes/simple.rs:51-73 (names at atelier-core/src/syntax.rs:36-72). -/
def Simple.display : Simple → Str
  | .blob => %s"blob"
  | .boolean => %s"boolean"
  | .document => %s"document"
  | .string => %s"string"
  | .byte => %s"byte"
  | .short => %s"short"
  | .integer => %s"integer"
  | .long => %s"long"
  | .float => %s"float"
  | .double => %s"double"
  | .bigInteger => %s"bigInteger"
  | .bigDecimal => %s"bigDecimal"
  | .timestamp => %s"timestamp"

/-- `FromStr for Simple`, atelier-core/src/model/shapes/simple.rs:75-96: the arms of the `match`. -/
def Simple.arms : List (Str × Simple) := [
  (%s"blob", .blob),
  (%s"boolean", .boolean),
  (%s"document", .document),
  (%s"string", .string),
  (%s"byte", .byte),
  (%s"short", .short),
  (%s"integer", .integer),
  (%s"long", .long),
  (%s"float", .float),
  (%s"double", .double),
  (%s"bigInteger", .bigInteger),
  (%s"bigDecimal", .bigDecimal),
  (%s"timestamp", .timestamp)]

/-- `FromStr for Simple`, atelier-core/src/model/shapes/simple.rs:75-96. -/
def Simple.fromStr (s : Str) : Except Err Simple :=
  match matchArms Simple.arms s with
  | some v => .ok v
  | none => .error (.invalidSimpleShape s)

/-- `ShapeType`, atelier-core/src/model/selector/mod.rs:20-73. -/
inductive ShapeType where
  | any
  | number
  | simpleType
  | collection
  | blob
  | boolean
  | document
  | string
  | integer
  | byte
  | short
  | long
  | float
  | double
  | bigDecimal
  | bigInteger
  | timestamp
  | list
  | set
  | map
  | structure
  | union
  | service
  | operation
  | resource
  | member
  deriving DecidableEq, Repr

/-- `Display for ShapeType`, atelier-core/src/model/selector/mod.rs:512-547. -/
def ShapeType.display : ShapeType → Str
  | .any => %s"*"
  | .number => %s"number"
  | .simpleType => %s"simpleType"
  | .collection => %s"collection"
  | .blob => %s"blob"
  | .boolean => %s"boolean"
  | .document => %s"document"
  | .string => %s"string"
  | .integer => %s"integer"
  | .byte => %s"byte"
  | .short => %s"short"
  | .long => %s"long"
  | .float => %s"float"
  | .double => %s"double"
  | .bigDecimal => %s"bigDecimal"
  | .bigInteger => %s"bigInteger"
  | .timestamp => %s"timestamp"
  | .list => %s"list"
  | .set => %s"set"
  | .map => %s"map"
  | .structure => %s"structure"
  | .union => %s"union"
  | .service => %s"service"
  | .operation => %s"operation"
  | .resource => %s"resource"
  | .member => %s"member"

/-- `FromStr for ShapeType`, atelier-core/src/model/selector/mod.rs:549-583: the arms of the `match`. -/
def ShapeType.arms : List (Str × ShapeType) := [
  (%s"*", .any),
  (%s"number", .number),
  (%s"simpleType", .simpleType),
  (%s"collection", .collection),
  (%s"blob", .blob),
  (%s"boolean", .boolean),
  (%s"document", .document),
  (%s"string", .string),
  (%s"integer", .integer),
  (%s"byte", .byte),
  (%s"short", .short),
  (%s"long", .long),
  (%s"float", .float),
  (%s"double", .double),
  (%s"bigDecimal", .bigDecimal),
  (%s"bigInteger", .bigInteger),
  (%s"timestamp", .timestamp),
  (%s"list", .list),
  (%s"set", .set),
  (%s"map", .map),
  (%s"structure", .structure),
  (%s"union", .union),
  (%s"service", .service),
  (%s"operation", .operation),
  (%s"resource", .resource),
  (%s"member", .member)]

/-- `FromStr for ShapeType`, atelier-core/src/model/selector/mod.rs:549-583. -/
def ShapeType.fromStr (s : Str) : Except Err ShapeType :=
  match matchArms ShapeType.arms s with
  | some v => .ok v
  | none => .error (.invalidSelector s)

/-- `Comparator`, atelier-core/src/model/selector/mod.rs:127-157. -/
inductive Comparator where
  | stringEqual
  | stringNotEqual
  | stringStartsWith
  | stringEndsWith
  | stringContains
  | stringExists
  | numberGreaterThan
  | numberGreaterOrEqual
  | numberLessThan
  | numberLessOrEqual
  | projectionEqual
  | projectionNotEqual
  | projectionSubset
  | projectionProperSubset
  deriving DecidableEq, Repr

/-- `Display for Comparator`, atelier-core/src/model/selector/mod.rs:751-774. -/
def Comparator.display : Comparator → Str
  | .stringEqual => %s"="
  | .stringNotEqual => %s"!="
  | .stringStartsWith => %s"^="
  | .stringEndsWith => %s"$="
  | .stringContains => %s"*="
  | .stringExists => %s"?="
  | .numberGreaterThan => %s">"
  | .numberGreaterOrEqual => %s">="
  | .numberLessThan => %s"<"
  | .numberLessOrEqual => %s"<="
  | .projectionEqual => %s"{=}"
  | .projectionNotEqual => %s"{!=}"
  | .projectionSubset => %s"{<}"
  | .projectionProperSubset => %s"{<<}"

/-- `FromStr for Comparator`, atelier-core/src/model/selector/mod.rs:776-798: the arms of the `match`. -/
def Comparator.arms : List (Str × Comparator) := [
  (%s"=", .stringEqual),
  (%s"!=", .stringNotEqual),
  (%s"^=", .stringStartsWith),
  (%s"$=", .stringEndsWith),
  (%s"*=", .stringContains),
  (%s"?=", .stringExists),
  (%s">", .numberGreaterThan),
  (%s">=", .numberGreaterOrEqual),
  (%s"<", .numberLessThan),
  (%s"<=", .numberLessOrEqual),
  (%s"{=}", .projectionEqual),
  (%s"{!=}", .projectionNotEqual),
  (%s"{<}", .projectionSubset),
  (%s"{<<}", .projectionProperSubset)]

/-- `FromStr for Comparator`, atelier-core/src/model/selector/mod.rs:776-798. -/
def Comparator.fromStr (s : Str) : Except Err Comparator :=
  match matchArms Comparator.arms s with
  | some v => .ok v
  | none => .error (.invalidSelector s)

/-- `ErrorSource`, atelier-core/src/builder/traits.rs:26-31. -/
inductive ErrorSource where
  | client
  | server
  deriving DecidableEq, Repr

/-- `Display for ErrorSource`, atelier-core/src/builder/traits.rs:248-259. -/
def ErrorSource.display : ErrorSource → Str
  | .client => %s"client"
  | .server => %s"server"

/-- `FromStr for ErrorSource`, atelier-core/src/builder/traits.rs:261-271 (the error names the trait, not the text): the arms of the `match`. -/
def ErrorSource.arms : List (Str × ErrorSource) := [
  (%s"client", .client),
  (%s"server", .server)]

/-- `FromStr for ErrorSource`, atelier-core/src/builder/traits.rs:261-271 (the error names the trait, not the text). -/
def ErrorSource.fromStr (s : Str) : Except Err ErrorSource :=
  match matchArms ErrorSource.arms s with
  | some v => .ok v
  | none => .error (.invalidTraitValue (%s"error"))

/-- `FileFormat`, cargo-atelier/src/lib.rs:26-30. -/
inductive FileFormat where
  | json
  | smithy
  | uml
  deriving DecidableEq, Repr

/-- `Display for FileFormat`, cargo-atelier/src/lib.rs:56-68. -/
def FileFormat.display : FileFormat → Str
  | .json => %s"json"
  | .smithy => %s"smithy"
  | .uml => %s"uml"

/-- `FromStr for FileFormat`, cargo-atelier/src/lib.rs:70-81 (`FormatStringError` holds the text): the arms of the `match`. -/
def FileFormat.arms : List (Str × FileFormat) := [
  (%s"json", .json),
  (%s"smithy", .smithy),
  (%s"uml", .uml)]

/-- `FromStr for FileFormat`, cargo-atelier/src/lib.rs:70-81 (`FormatStringError` holds the text). -/
def FileFormat.fromStr (s : Str) : Except Str FileFormat :=
  match matchArms FileFormat.arms s with
  | some v => .ok v
  | none => .error s

end Verif
