/-
Model of atelier-smithy/src/parser/smithy.rs: from the pairs of the grammar to a model builder and the model.
-/
import Verif.IdlGrammar
import Verif.Builder

namespace Verif
open Peg

/-- `char::is_whitespace` (Unicode `White_Space`). -/
def isWhite (c : Char) : Bool :=
  charRange 0x9 0xD c || c == ' ' || charRange 0x85 0x85 c || charRange 0xA0 0xA0 c || charRange 0x1680 0x1680 c ||
  charRange 0x2000 0x200A c || charRange 0x2028 0x2029 c || charRange 0x202F 0x202F c || charRange 0x205F 0x205F c ||
  charRange 0x3000 0x3000 c

/-- `str::trim_start`. -/
def trimStart (s : Str) : Str := s.dropWhile isWhite

/-- `TraitBuilder::with_value`, atelier-core/src/builder/traits.rs:293-298. -/
def TraitBuilder.withValue (id : Str) (v : Value) : Except Err TraitBuilder := do
  return ⟨← unwrap (ShapeName.fromStr id), some v⟩

/-- `MemberBuilder::new`, atelier-core/src/builder/shapes.rs:773-779. -/
def MemberBuilder.new (name target : Str) : Except Err MemberBuilder := do
  return ⟨← unwrap (Identifier.fromStr name), [], ← unwrap (ShapeName.fromStr target)⟩

/-- `traits::documentation`, atelier-core/src/builder/traits.rs:64-66, with `prelude_name` (354-359); parsing the constant
`smithy.api#documentation` succeeds. -/
def documentationTrait (s : Str) : TraitBuilder := ⟨.qualified ⟨preludeNs, %s"documentation", none⟩, some (.string s)⟩

/-- `shape_name: ShapeName::from_str(shape_name).unwrap()` with no traits, in the `new` of the shape builders,
atelier-core/src/builder/shapes.rs:240-246, 339-345, 395-401, 494-503, 568-576, 626-641. -/
def Builder.named (id : Str) (b : BuilderBody) : Except Err Builder := do
  return ⟨← unwrap (ShapeName.fromStr id), [], b⟩

/-- `ModelBuilder::meta_data_from`, atelier-core/src/builder/mod.rs:206-211. -/
def ModelBuilder.metaDataFrom (mb : ModelBuilder) : List (Str × Value) → ModelBuilder
  | [] => mb
  | (k, v) :: rest => (mb.metaData k v).metaDataFrom rest

/-- The fields of `ResourceBuilder` other than the name and the traits, atelier-core/src/builder/shapes.rs:136-149. -/
structure ResourceFields where
  identifiers : AMap Str ShapeName
  create : Option ShapeName
  put : Option ShapeName
  read : Option ShapeName
  update : Option ShapeName
  delete : Option ShapeName
  list : Option ShapeName
  operations : List ShapeName
  collectionOperations : List ShapeName
  resources : List ShapeName

/-- The builder with these fields. -/
def ResourceFields.body (r : ResourceFields) : BuilderBody :=
  .resource r.identifiers r.create r.put r.read r.update r.delete r.list r.operations r.collectionOperations r.resources

namespace IdlParser
open IdlRule
open SelParser (unexpected astray next each all)

/-- Parsing numbers, atelier-smithy/src/parser/smithy.rs:757-767: the errors are chained, not unwrapped; `flt` is
`f64::from_str` of the standard library. -/
def numberOf (flt : Str → Option F64) (t : Str) : Except Err Number :=
  if t.contains '.' then
    match flt t with
    | some x => .ok (.float x)
    | none => .error (.other %s"number format error")
  else
    match SelParser.parseI64 t with
    | some n => .ok (.integer n)
    | none => .error (.other %s"number format error")

/-- `parse_quoted_text` and `parse_text_block`, atelier-smithy/src/parser/smithy.rs:782-804: the loops return at the first
pair. -/
def textOf (rule : IdlRule) : List (Pair IdlRule) → Except Err Value
  | [] => unexpected
  | p :: _ => if p.asRule = rule then .ok (.string p.asStr) else unexpected

mutual
  /-- `parse_node_value`, atelier-smithy/src/parser/smithy.rs:751-780: the first pair inside, unwrapped. -/
  def nodeValueOf (flt : Str → Option F64) : Pair IdlRule → Except Err Value
    | .mk _ _ ps => firstValue flt ps
  termination_by structural x => x
  /-- `input_pair.into_inner().next().unwrap()`, atelier-smithy/src/parser/smithy.rs:753. -/
  def firstValue (flt : Str → Option F64) : List (Pair IdlRule) → Except Err Value
    | [] => .error .panic
    | p :: _ => innerValue flt p
  termination_by structural x => x
  /-- The `match` of `parse_node_value`, atelier-smithy/src/parser/smithy.rs:751-780. -/
  def innerValue (flt : Str → Option F64) : Pair IdlRule → Except Err Value
    | .mk r t ps =>
      match r with
      | nodeArray => (arrayOf flt ps).map .array
      | nodeObject => (objectOf flt [] ps).map .object
      | number => (numberOf flt t).map .number
      | kwTrue => .ok (.boolean true)
      | kwFalse => .ok (.boolean false)
      | kwNull => .ok .none
      | shapeId => .ok (.string t)
      | textBlock => textOf blockQuotedChars ps
      | quotedText => textOf quotedChars ps
      | _ => unexpected
  termination_by structural x => x
  /-- `parse_node_array`, atelier-smithy/src/parser/smithy.rs:806-816, on the pairs inside. -/
  def arrayOf (flt : Str → Option F64) : List (Pair IdlRule) → Except Err (List Value)
    | [] => .ok []
    | p :: ps =>
      if p.asRule = nodeValue then
        match nodeValueOf flt p with
        | .error e => .error e
        | .ok v =>
          match arrayOf flt ps with
          | .error e => .error e
          | .ok vs => .ok (v :: vs)
      else unexpected
  termination_by structural x => x
  /-- `parse_node_object`, atelier-smithy/src/parser/smithy.rs:818-831, on the pairs inside. -/
  def objectOf (flt : Str → Option F64) (object : AMap Str Value) : List (Pair IdlRule) → Except Err (AMap Str Value)
    | [] => .ok object
    | p :: ps =>
      if p.asRule = nodeObjectKvp then
        match kvpOf flt p with
        | .error e => .error e
        | .ok (k, v) => objectOf flt (AMap.insert object k v) ps
      else unexpected
  termination_by structural x => x
  /-- `parse_node_object_kvp`, atelier-smithy/src/parser/smithy.rs:833-853. -/
  def kvpOf (flt : Str → Option F64) : Pair IdlRule → Except Err (Str × Value)
    | .mk _ _ ps => kvpLoop flt none none ps
  termination_by structural x => x
  /-- The loop of `parse_node_object_kvp`, atelier-smithy/src/parser/smithy.rs:833-853. A quoted key is stored with its
  quotes. -/
  def kvpLoop (flt : Str → Option F64) (key : Option Str) (value : Option Value) : List (Pair IdlRule) → Except Err (Str × Value)
    | [] =>
      match key, value with
      | some k, some v => .ok (k, v)
      | _, _ => unexpected
    | p :: ps =>
      match p.asRule with
      | identifier => kvpLoop flt (some p.asStr) value ps
      | quotedText => kvpLoop flt (some p.asStr) value ps
      | nodeValue =>
        match nodeValueOf flt p with
        | .error e => .error e
        | .ok v => kvpLoop flt key (some v) ps
      | _ => unexpected
  termination_by structural x => x
end

/-- The key of `parse_trait_structure_kvp`, atelier-smithy/src/parser/smithy.rs:346-361: the quotes are removed. -/
def quotedKey : Option Str → List (Pair IdlRule) → Except Err (Option Str)
  | id, [] => .ok id
  | _, p :: ps => if p.asRule = quotedChars then quotedKey (some p.asStr) ps else unexpected

/-- `parse_trait_structure_kvp`, atelier-smithy/src/parser/smithy.rs:340-373, on the pairs inside. -/
def structureKvp (flt : Str → Option F64) (id : Option Str) (value : Option Value) : List (Pair IdlRule) → Except Err (Str × Value)
  | [] =>
    match id, value with
    | some k, some v => .ok (k, v)
    | _, _ => unexpected
  | p :: ps =>
    match p.asRule with
    | quotedText => do
      let id ← quotedKey id p.intoInner
      if id.isNone then unexpected else structureKvp flt id value ps
    | identifier => structureKvp flt (some p.asStr) value ps
    | nodeValue => do structureKvp flt id (some (← nodeValueOf flt p)) ps
    | _ => unexpected

/-- The loop of `parse_a_trait`, atelier-smithy/src/parser/smithy.rs:303-317. -/
def traitParts (flt : Str → Option F64) (id : Option Str) (value : Option Value) (members : AMap Str Value) :
    List (Pair IdlRule) → Except Err (Option Str × Option Value × AMap Str Value)
  | [] => .ok (id, value, members)
  | p :: ps =>
    match p.asRule with
    | shapeId => traitParts flt (some p.asStr) value members ps
    | nodeValue => do traitParts flt id (some (← nodeValueOf flt p)) members ps
    | traitStructureKvp => do
      let (k, v) ← structureKvp flt none none p.intoInner
      traitParts flt id value (AMap.insert members k v) ps
    | _ => unexpected

/-- `parse_a_trait`, atelier-smithy/src/parser/smithy.rs:298-337: a trait without a value gets an empty object. -/
def traitOf (flt : Str → Option F64) (p : Pair IdlRule) : Except Err TraitBuilder := do
  let (id, value, members) ← traitParts flt none none [] p.intoInner
  match id, value, members with
  | _, some _, _ :: _ => astray %s"parse_a_trait" none
  | some id, some v, [] => TraitBuilder.withValue id v
  | some id, none, members => TraitBuilder.withValue id (.object members)
  | none, _, _ => unexpected

/-- `parse_trait_statements`, atelier-smithy/src/parser/smithy.rs:284-296. -/
def traitsOf (flt : Str → Option F64) (p : Pair IdlRule) : Except Err (List TraitBuilder) := each aTrait (traitOf flt) p.intoInner

/-- `apply_traits`, atelier-smithy/src/parser/smithy.rs:862-869: the traits to push, in order. -/
def appliedTraits (docs : List Str) (traits : List TraitBuilder) : List TraitBuilder :=
  (if docs.isEmpty then [] else [documentationTrait (joinWith ['\n'] docs)]) ++ traits

/-- `parse_shape_member_kvp`, atelier-smithy/src/parser/smithy.rs:504-535, on the pairs inside. `parse_documentation_text`
is at 273-282. -/
def memberLoop (flt : Str → Option F64) (docs : List Str) (traits : List TraitBuilder) (id target : Option Str) :
    List (Pair IdlRule) → Except Err MemberBuilder
  | [] =>
    match id, target with
    | some id, some target => do
      let m ← MemberBuilder.new id target
      return { m with traits := m.traits ++ appliedTraits docs traits }
    | _, _ => unexpected
  | p :: ps =>
    match p.asRule with
    | documentationText => memberLoop flt (docs ++ [trimStart p.asStr]) traits id target ps
    | traitStatements => do memberLoop flt docs (← traitsOf flt p) id target ps
    | identifier => memberLoop flt docs traits (some p.asStr) target ps
    | shapeId => memberLoop flt docs traits id (some p.asStr) ps
    | _ => unexpected

/-- `parse_shape_members`, atelier-smithy/src/parser/smithy.rs:489-502. -/
def membersOf (flt : Str → Option F64) (p : Pair IdlRule) : Except Err (List MemberBuilder) :=
  each shapeMemberKvp (fun q => memberLoop flt [] [] none none q.intoInner) p.intoInner

/-- `parse_membered_statement`, atelier-smithy/src/parser/smithy.rs:471-487. -/
def memberedOf (flt : Str → Option F64) (p : Pair IdlRule) : Except Err (Str × List MemberBuilder) := do
  let (first, inner) ← next p.intoInner
  let id ← if first.asRule = identifier then .ok first.asStr else unexpected
  let (second, _) ← next inner
  let members ← if second.asRule = shapeMembers then membersOf flt second else unexpected
  return (id, members)

/-- The simple type of a rule, atelier-smithy/src/parser/smithy.rs:384-396. -/
def simpleOf : IdlRule → Option Simple
  | typeBlob => some .blob
  | typeBoolean => some .boolean
  | typeDocument => some .document
  | typeString => some .string
  | typeByte => some .byte
  | typeShort => some .short
  | typeInteger => some .integer
  | typeLong => some .long
  | typeFloat => some .float
  | typeDouble => some .double
  | typeBigInteger => some .bigInteger
  | typeBigDecimal => some .bigDecimal
  | typeTimestamp => some .timestamp
  | _ => none

/-- `parse_simple_shape_statement`, atelier-smithy/src/parser/smithy.rs:375-406, on the pairs inside. -/
def simpleLoop (id : Option Str) (type : Option Simple) : List (Pair IdlRule) → Except Err Builder
  | [] =>
    match id, type with
    | some id, some type => Builder.named id (.simple type)
    | _, _ => unexpected
  | p :: ps =>
    if p.asRule = identifier then simpleLoop (some p.asStr) type ps
    else
      match simpleOf p.asRule with
      | some s => simpleLoop id (some s) ps
      | none => unexpected

/-- `parse_list_statement`, atelier-smithy/src/parser/smithy.rs:408-426, with `ListBuilder::with_target`: exactly one
member, called `member`, of which only the target is kept. -/
def listOf (flt : Str → Option F64) (kind : MemberBuilder → BuilderBody) (p : Pair IdlRule) : Except Err Builder := do
  let (id, members) ← memberedOf flt p
  match members with
  | [m] => if identEq m.name memberMember then Builder.named id (kind ⟨memberMember, [], m.target⟩) else astray %s"parse_list_statement" none
  | _ => astray %s"parse_list_statement" none

/-- The loop of `parse_map_statement`, atelier-smithy/src/parser/smithy.rs:433-444. -/
def keyAndValue (key value : Option Str) : List MemberBuilder → Except Err (Option Str × Option Str)
  | [] => .ok (key, value)
  | m :: ms =>
    if identEq m.name memberKey then keyAndValue (some m.target.display) value ms
    else if identEq m.name memberValue then keyAndValue key (some m.target.display) ms
    else astray %s"parse_map_statement" none

/-- `parse_map_statement`, atelier-smithy/src/parser/smithy.rs:428-449, with `MapBuilder::new`. -/
def mapOf (flt : Str → Option F64) (p : Pair IdlRule) : Except Err Builder := do
  let (id, members) ← memberedOf flt p
  let (key, value) ← keyAndValue none none members
  match key, value with
  | some k, some v => do
    let n ← unwrap (ShapeName.fromStr id)
    let k ← MemberBuilder.new memberKey k
    let v ← MemberBuilder.new memberValue v
    return ⟨n, [], .map k v⟩
  | _, _ => astray %s"parse_map_statement" none

/-- `parse_structure_statement` and `parse_union_statement`, atelier-smithy/src/parser/smithy.rs:451-469. -/
def structureOf (flt : Str → Option F64) (kind : List MemberBuilder → BuilderBody) (p : Pair IdlRule) : Except Err Builder := do
  let (id, members) ← memberedOf flt p
  Builder.named id (kind members)

/-- `parse_id_and_object`, atelier-smithy/src/parser/smithy.rs:708-725, on the pairs inside; the value is always an object. -/
def idAndObject (flt : Str → Option F64) (id : Option Str) (object : Option (AMap Str Value)) :
    List (Pair IdlRule) → Except Err (Str × AMap Str Value)
  | [] =>
    match id, object with
    | some id, some o => .ok (id, o)
    | _, _ => unexpected
  | p :: ps =>
    match p.asRule with
    | identifier => idAndObject flt (some p.asStr) object ps
    | nodeObject => do idAndObject flt id (some (← objectOf flt [] p.intoInner)) ps
    | _ => unexpected

/-- `ShapeName::from_str(&value.as_string().unwrap()).unwrap()`, e.g. atelier-smithy/src/parser/smithy.rs:551 with
atelier-core/src/builder/shapes.rs:513. -/
def nameOf : Value → Except Err ShapeName
  | .string s => unwrap (ShapeName.fromStr s)
  | _ => .error .panic

/-- `for value in values { let _ = builder.push(&value.as_string().unwrap()); }`. -/
def namesIn : List Value → Except Err (List ShapeName)
  | [] => .ok []
  | v :: vs => do
    let n ← nameOf v
    let ns ← namesIn vs
    return n :: ns

/-- `if let NodeValue::Array(values) = value { .. } else { error }`, e.g. atelier-smithy/src/parser/smithy.rs:549-557, in the function with this
name. -/
def namesOf (place : Str) : Value → Except Err (List ShapeName)
  | .array vs => namesIn vs
  | _ => astray place none

/-- The loop of `parse_service_statement`, atelier-smithy/src/parser/smithy.rs:545-576, over the entries of a `HashMap`, in
the order of the association list. -/
def serviceLoop (ops res : List ShapeName) : List (Str × Value) → Except Err (List ShapeName × List ShapeName)
  | [] => .ok (ops, res)
  | (k, v) :: rest =>
    if k = %s"version" then serviceLoop ops res rest
    else if k = %s"operations" then do serviceLoop (ops ++ (← namesOf %s"parse_service_statement" v)) res rest
    else if k = %s"resources" then do serviceLoop ops (res ++ (← namesOf %s"parse_service_statement" v)) rest
    else astray %s"parse_service_statement" (some k)

/-- `parse_service_statement`, atelier-smithy/src/parser/smithy.rs:537-583: a missing version, or one that is not a string,
panics. -/
def serviceOf (flt : Str → Option F64) (p : Pair IdlRule) : Except Err Builder := do
  let (id, object) ← idAndObject flt none none p.intoInner
  match AMap.get object %s"version" with
  | some (.string version) => do
    let n ← unwrap (ShapeName.fromStr id)
    let (ops, res) ← serviceLoop [] [] object
    return ⟨n, [], .service version ops res []⟩
  | _ => .error .panic

/-- The loop of `parse_operation_statement`, atelier-smithy/src/parser/smithy.rs:590-615. -/
def operationLoop (input output : Option ShapeName) (errors : List ShapeName) : List (Str × Value) → Except Err BuilderBody
  | [] => .ok (.operation input output errors)
  | (k, v) :: rest =>
    if k = %s"input" then do operationLoop (some (← nameOf v)) output errors rest
    else if k = %s"output" then do operationLoop input (some (← nameOf v)) errors rest
    else if k = %s"errors" then do operationLoop input output (errors ++ (← namesOf %s"parse_operation_statement" v)) rest
    else astray %s"parse_operation_statement" (some k)

/-- `parse_operation_statement`, atelier-smithy/src/parser/smithy.rs:585-622. -/
def operationOf (flt : Str → Option F64) (p : Pair IdlRule) : Except Err Builder := do
  let (id, object) ← idAndObject flt none none p.intoInner
  let n ← unwrap (ShapeName.fromStr id)
  let b ← operationLoop none none [] object
  return ⟨n, [], b⟩

/-- The loop over the identifiers, atelier-smithy/src/parser/smithy.rs:633-635 with
atelier-core/src/builder/shapes.rs:645-651. -/
def identifiersIn (ids : AMap Str ShapeName) : List (Str × Value) → Except Err (AMap Str ShapeName)
  | [] => .ok ids
  | (k, v) :: rest =>
    match v with
    | .string s => do
      let k ← unwrap (Identifier.fromStr k)
      let n ← unwrap (ShapeName.fromStr s)
      identifiersIn (AMap.insert ids k n) rest
    | _ => .error .panic

/-- `if let NodeValue::Object(identifiers) = value`, atelier-smithy/src/parser/smithy.rs:632-640. -/
def identifiersOf (ids : AMap Str ShapeName) : Value → Except Err (AMap Str ShapeName)
  | .object o => identifiersIn ids o
  | _ => astray %s"parse_resource_statement" none

/-- The loop of `parse_resource_statement`, atelier-smithy/src/parser/smithy.rs:629-699. -/
def resourceLoop (r : ResourceFields) : List (Str × Value) → Except Err ResourceFields
  | [] => .ok r
  | (k, v) :: rest =>
    if k = %s"identifiers" then do resourceLoop { r with identifiers := ← identifiersOf r.identifiers v } rest
    else if k = %s"create" then do resourceLoop { r with create := some (← nameOf v) } rest
    else if k = %s"put" then do resourceLoop { r with put := some (← nameOf v) } rest
    else if k = %s"read" then do resourceLoop { r with read := some (← nameOf v) } rest
    else if k = %s"update" then do resourceLoop { r with update := some (← nameOf v) } rest
    else if k = %s"delete" then do resourceLoop { r with delete := some (← nameOf v) } rest
    else if k = %s"list" then do resourceLoop { r with list := some (← nameOf v) } rest
    else if k = %s"operations" then do resourceLoop { r with operations := r.operations ++ (← namesOf %s"parse_resource_statement" v) } rest
    else if k = %s"collectionOperations" then do
      resourceLoop { r with collectionOperations := r.collectionOperations ++ (← namesOf %s"parse_resource_statement" v) } rest
    else if k = %s"resources" then do resourceLoop { r with resources := r.resources ++ (← namesOf %s"parse_resource_statement" v) } rest
    else astray %s"parse_resource_statement" (some k)

/-- `parse_resource_statement`, atelier-smithy/src/parser/smithy.rs:624-706. -/
def resourceOf (flt : Str → Option F64) (p : Pair IdlRule) : Except Err Builder := do
  let (id, object) ← idAndObject flt none none p.intoInner
  let n ← unwrap (ShapeName.fromStr id)
  let r ← resourceLoop ⟨[], none, none, none, none, none, none, [], [], []⟩ object
  return ⟨n, [], r.body⟩

/-- `parse_apply_statement`, atelier-smithy/src/parser/smithy.rs:727-749, on the pairs inside; `ReferenceBuilder::new`. -/
def applyLoop (flt : Str → Option F64) (id : Option Str) (t : Option TraitBuilder) : List (Pair IdlRule) → Except Err Builder
  | [] =>
    match id with
    | some id => do return ⟨.qualified (← unwrap (ShapeID.fromStr id)), t.toList, .reference⟩
    | none => unexpected
  | p :: ps =>
    match p.asRule with
    | identifier => applyLoop flt (some p.asStr) t ps
    | aTrait => do applyLoop flt id (some (← traitOf flt p)) ps
    | _ => unexpected

/-- The builder for one of the statements, atelier-smithy/src/parser/smithy.rs:217-261. -/
def builderOf (flt : Str → Option F64) (p : Pair IdlRule) : Except Err Builder :=
  match p.asRule with
  | simpleShapeStatement => simpleLoop none none p.intoInner
  | listStatement => listOf flt .list p
  | setStatement => listOf flt .set p
  | mapStatement => mapOf flt p
  | structureStatement => structureOf flt .struct p
  | unionStatement => structureOf flt .union p
  | serviceStatement => serviceOf flt p
  | operationStatement => operationOf flt p
  | resourceStatement => resourceOf flt p
  | _ => unexpected

/-- `parse_shape_statement`, atelier-smithy/src/parser/smithy.rs:202-271, on the pairs inside. -/
def statementLoop (flt : Str → Option F64) (mb : ModelBuilder) (docs : List Str) (traits : List TraitBuilder) :
    List (Pair IdlRule) → Except Err ModelBuilder
  | [] => .ok mb
  | p :: ps =>
    match p.asRule with
    | documentationText => statementLoop flt mb (docs ++ [trimStart p.asStr]) traits ps
    | traitStatements => do statementLoop flt mb docs (← traitsOf flt p) ps
    | applyStatement => do statementLoop flt (mb.insert (← applyLoop flt none none p.intoInner)) docs traits ps
    | EOI => statementLoop flt mb docs traits ps
    | _ => do
      let b ← builderOf flt p
      statementLoop flt (mb.insert { b with traits := b.traits ++ appliedTraits docs traits }) docs traits ps

/-- `parse_shape_statements`, atelier-smithy/src/parser/smithy.rs:185-200, on the pairs inside: an `apply_statement` is not
among the expected rules. -/
def statementsLoop (flt : Str → Option F64) (mb : ModelBuilder) : List (Pair IdlRule) → Except Err ModelBuilder
  | [] => .ok mb
  | p :: ps =>
    match p.asRule with
    | shapeStatement => do statementsLoop flt (← statementLoop flt mb [] [] p.intoInner) ps
    | EOI => statementsLoop flt mb ps
    | _ => astray %s"parse_shape_statements" none

/-- `parse_use_section`, atelier-smithy/src/parser/smithy.rs:165-183, on the pairs inside. -/
def useLoop (mb : ModelBuilder) : List (Pair IdlRule) → Except Err ModelBuilder
  | [] => .ok mb
  | p :: ps =>
    if p.asRule = useStatement then do
      let (inner, _) ← next p.intoInner
      if inner.asRule = absoluteRootShapeId then useLoop (← mb.uses inner.asStr) ps else unexpected
    else unexpected

/-- `parse_namespace_statement`, atelier-smithy/src/parser/smithy.rs:152-163. -/
def namespaceOf (v : Version) (p : Pair IdlRule) : Except Err ModelBuilder := do
  let (inner, _) ← next p.intoInner
  if inner.asRule = nsName then ModelBuilder.new v inner.asStr else unexpected

/-- `builder.as_mut().unwrap()`. -/
def someBuilder : Option ModelBuilder → Except Err ModelBuilder
  | some mb => .ok mb
  | none => .error .panic

/-- `parse_shape_section`, atelier-smithy/src/parser/smithy.rs:129-150, on the pairs inside. -/
def sectionLoop (flt : Str → Option F64) (v : Version) (mb : Option ModelBuilder) : List (Pair IdlRule) → Except Err (Option ModelBuilder)
  | [] => .ok mb
  | p :: ps =>
    match p.asRule with
    | namespaceStatement => do sectionLoop flt v (some (← namespaceOf v p)) ps
    | useSection => do sectionLoop flt v (some (← useLoop (← someBuilder mb) p.intoInner)) ps
    | shapeStatements => do sectionLoop flt v (some (← statementsLoop flt (← someBuilder mb) p.intoInner)) ps
    | _ => unexpected

/-- `parse_control_section` and `parse_metadata_section`, atelier-smithy/src/parser/smithy.rs:99-127, on the pairs inside. -/
def entriesOf (flt : Str → Option F64) (rule : IdlRule) (map : AMap Str Value) : List (Pair IdlRule) → Except Err (AMap Str Value)
  | [] => .ok map
  | p :: ps =>
    if p.asRule = rule then do
      let (k, v) ← kvpOf flt p
      entriesOf flt rule (AMap.insert map k v) ps
    else unexpected

/-- `next_pair_into!`, atelier-smithy/src/parser/mod.rs:61-70. -/
def nextInto {α : Type} (rule : IdlRule) (f : Pair IdlRule → Except Err α) (ps : List (Pair IdlRule)) :
    Except Err (α × List (Pair IdlRule)) := do
  let (p, rest) ← next ps
  if p.asRule = rule then return (← f p, rest) else unexpected

/-- The version in the control data, atelier-smithy/src/parser/smithy.rs:76-80: a value that is not a string is ignored. -/
def versionOf (control : AMap Str Value) : Except Err Version :=
  match AMap.get control %s"version" with
  | some (.string v) => Version.fromStr v
  | _ => .ok .v10

/-- `parse_idl`, atelier-smithy/src/parser/smithy.rs:65-97, up to the builder: the metadata, and the builder if there is a
namespace. -/
def readIdl (flt : Str → Option F64) (p : Pair IdlRule) : Except Err (Option ModelBuilder) :=
  if p.asRule = idl then do
    let (control, inner) ← nextInto controlSection (fun p => entriesOf flt controlStatement [] p.intoInner) p.intoInner
    let version ← versionOf control
    let (metadata, inner) ← nextInto metadataSection (fun p => entriesOf flt metadataStatement [] p.intoInner) inner
    let (mb, _) ← nextInto shapeSection (fun p => sectionLoop flt version none p.intoInner) inner
    return mb.map fun mb => mb.metaDataFrom metadata
  else unexpected

end IdlParser

/-- The part of `parse_model` before the builder is turned into a model, atelier-smithy/src/parser/smithy.rs:43-47, 65-97. -/
def readBuilder (flt : Str → Option F64) (s : Str) : Except Err (Option ModelBuilder) :=
  match matchIdl s with
  | none => .error (.deserialization %s"Smithy" %s"pest" none)
  | some ps => do
    let (top, _) ← SelParser.next ps
    IdlParser.readIdl flt top

/-- `parse_model`, atelier-smithy/src/parser/smithy.rs:43-47, called by `SmithyReader::read` (reader.rs:37-41) on the
content. Without a namespace the result is `Model::default()` (91). `enum` is as in `ModelBuilder.build`. -/
def parseModel (flt : Str → Option F64) (enum : List ShapeID → List ShapeID) (s : Str) : Except Err Model := do
  match ← readBuilder flt s with
  | none => return Model.new .v10
  | some mb => mb.build enum

end Verif
