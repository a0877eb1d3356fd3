/-
Model of atelier-json/src/{writer,reader,syntax}.rs: between models and `serde_json::Value`. The text of a JSON document
(serde_json itself) is not modelled.
-/
import Verif.Model

namespace Verif

/-- `serde_json::Number`: `PosInt(u64)`, `NegInt(i64)` (negative), `Float(f64)` (finite). -/
inductive JNum where
  | posInt (n : Nat)
  | negInt (n : Int)
  | float (x : F64)
  deriving DecidableEq, Repr

/-- `serde_json::Value`. An object is a `BTreeMap`; here its entries in some order. -/
inductive Json where
  | null
  | bool (b : Bool)
  | number (n : JNum)
  | string (s : Str)
  | array (vs : List Json)
  | object (vs : List (Str × Json))
  deriving Repr

/-- `Value::get` of serde_json with a string index: the entry of an object, else nothing. -/
def Json.get : Json → Str → Option Json
  | .object o, k => AMap.get o k
  | _, _ => none

/-- A loop that computes a result for each element and stops at the first error (`for`/`?`, `collect::<Result<_>>`). -/
def mapE {α β : Type} (f : α → Except Err β) : List α → Except Err (List β)
  | [] => .ok []
  | x :: xs =>
    match f x with
    | .error e => .error e
    | .ok y =>
      match mapE f xs with
      | .error e => .error e
      | .ok ys => .ok (y :: ys)

/-- `result.map(g)`: the rest of an iteration after a `?`. -/
def okMap {α β : Type} (g : α → β) : Except Err α → Except Err β
  | .ok a => .ok (g a)
  | .error e => .error e

/-! ### Writer -/

namespace JsonWriter

/-- `Number::Integer`/`Number::Float` arms of `from_value`, atelier-json/src/writer.rs:331-334: `From<i64>` of
serde_json's `Number`, and `from_f64(..).unwrap()`, which is `None` for NaN and infinities. -/
def fromNumber : Number → Except Err Json
  | .integer n => .ok (.number (if n < 0 then .negInt n else .posInt n.toNat))
  | .float x => if x.isFinite then .ok (.number (.float x)) else .error .panic

mutual
  /-- `from_value`, atelier-json/src/writer.rs:320-338. -/
  def fromValue : Value → Except Err Json
    | .none => .ok .null
    | .array vs =>
      match fromValues vs with
      | .error e => .error e
      | .ok js => .ok (.array js)
    | .object vs =>
      match fromEntries vs with
      | .error e => .error e
      | .ok js => .ok (.object (AMap.ofList js))
    | .number n => fromNumber n
    | .boolean b => .ok (.bool b)
    | .string s => .ok (.string s)
  termination_by structural x => x
  /-- The `map`/`collect` at atelier-json/src/writer.rs:323. -/
  def fromValues : List Value → Except Err (List Json)
    | [] => .ok []
    | v :: vs =>
      match fromValue v with
      | .error e => .error e
      | .ok j =>
        match fromValues vs with
        | .error e => .error e
        | .ok js => .ok (j :: js)
  termination_by structural x => x
  /-- The loop at atelier-json/src/writer.rs:326-328. -/
  def fromEntries : List (Str × Value) → Except Err (List (Str × Json))
    | [] => .ok []
    | e :: es =>
      match fromEntry e with
      | .error er => .error er
      | .ok j =>
        match fromEntries es with
        | .error er => .error er
        | .ok js => .ok (j :: js)
  termination_by structural x => x
  /-- One iteration of that loop. -/
  def fromEntry : Str × Value → Except Err (Str × Json)
    | (k, v) =>
      match fromValue v with
      | .error e => .error e
      | .ok j => .ok (k, j)
  termination_by structural x => x
end

/-- `from_reference`, atelier-json/src/writer.rs:340-347. -/
def fromReference (id : ShapeID) : Json := .object [(%s"target", .string id.display)]

/-- The value of a trait, atelier-json/src/writer.rs:288-291. -/
def fromTraitValue : TraitValue → Except Err Json
  | none => .ok (.object [])
  | some v => fromValue v

/-- `from_traits`, atelier-json/src/writer.rs:283-295. -/
def fromTraits (ts : Traits) : Except Err Json :=
  match mapE (fun e => okMap (fun j => (e.1.display, j)) (fromTraitValue e.2)) ts with
  | .error e => .error e
  | .ok js => .ok (.object (AMap.ofList js))

/-- `if has_traits() { insert("traits", from_traits(..)) }`, atelier-json/src/writer.rs:121-126 and 311-316. -/
def optTraits (ts : Traits) : Except Err (Option Json) :=
  if ts.isEmpty then .ok none
  else match fromTraits ts with
    | .error e => .error e
    | .ok j => .ok (some j)

/-- One (conditional) insert into a `serde_json::Map`. -/
def putField (m : AMap Str Json) : Str × Option Json → AMap Str Json
  | (k, some j) => AMap.insert m k j
  | (_, none) => m

/-- A `serde_json::Map` filled by a sequence of (conditional) inserts. -/
def fields (l : List (Str × Option Json)) : AMap Str Json := l.foldl putField []

/-- `from_member`, atelier-json/src/writer.rs:305-318. -/
def fromMember (m : MemberShape) : Except Err Json :=
  match optTraits m.traits with
  | .error e => .error e
  | .ok t => .ok (.object (fields [(%s"target", some (.string m.target.display)), (%s"traits", t)]))

/-- `from_members`, atelier-json/src/writer.rs:297-303. -/
def fromMembers (ms : List MemberShape) : Except Err Json :=
  match mapE (fun m => okMap (fun j => (m.id, j)) (fromMember m)) ms with
  | .error e => .error e
  | .ok js => .ok (.object (AMap.ofList js))

/-- `if has_members() { insert("members", from_members(..)) }`, atelier-json/src/writer.rs:158-161, 168-171. -/
def optMembers (ms : AMap Str MemberShape) : Except Err (Option Json) :=
  if ms.isEmpty then .ok none
  else match fromMembers (AMap.values ms) with
    | .error e => .error e
    | .ok j => .ok (some j)

/-- `if has_xs() { insert(.., Array(xs().map(from_reference))) }`, e.g. atelier-json/src/writer.rs:182-187. -/
def optRefs (ids : List ShapeID) : Option Json := if ids.isEmpty then none else some (.array (ids.map fromReference))

/-- `if let Some(v) = .. { insert(.., from_reference(v)) }`, e.g. atelier-json/src/writer.rs:207-209. -/
def optRef (id : Option ShapeID) : Option Json := id.map fromReference

/-- atelier-json/src/writer.rs:194-200. -/
def optRenames (m : AMap ShapeID Str) : Option Json :=
  if m.isEmpty then none
  else some (.object (AMap.ofList (m.map fun e => (e.1.display, Json.string e.2))))

/-- atelier-json/src/writer.rs:225-231. -/
def optIdentifiers (m : AMap Str ShapeID) : Option Json :=
  if m.isEmpty then none
  else some (.object (AMap.ofList (m.map fun e => (e.1, fromReference e.2))))

/-- The `match shape.body()` of `from_shape`, atelier-json/src/writer.rs:127-279: the entries inserted. -/
def fromKind : ShapeKind → Except Err (List (Str × Option Json))
  | .simple s => .ok [(%s"type", some (.string s.display))]
  | .list m =>
    match fromMember m with
    | .error e => .error e
    | .ok j => .ok [(%s"type", some (.string %s"list")), (%s"member", some j)]
  | .set m =>
    match fromMember m with
    | .error e => .error e
    | .ok j => .ok [(%s"type", some (.string %s"set")), (%s"member", some j)]
  | .map k v =>
    match fromMember k with
    | .error e => .error e
    | .ok j =>
      match fromMember v with
      | .error e => .error e
      | .ok j' => .ok [(%s"type", some (.string %s"map")), (%s"key", some j), (%s"value", some j')]
  | .struct ms =>
    match optMembers ms with
    | .error e => .error e
    | .ok o => .ok [(%s"type", some (.string %s"structure")), (%s"members", o)]
  | .union ms =>
    match optMembers ms with
    | .error e => .error e
    | .ok o => .ok [(%s"type", some (.string %s"union")), (%s"members", o)]
  | .service s => .ok [(%s"type", some (.string %s"service")), (%s"version", some (.string s.version)),
      (%s"operations", optRefs s.operations), (%s"resources", optRefs s.resources), (%s"rename", optRenames s.renames)]
  | .operation o => .ok [(%s"type", some (.string %s"operation")), (%s"input", optRef o.input),
      (%s"output", optRef o.output), (%s"errors", optRefs o.errors)]
  | .resource r => .ok [(%s"type", some (.string %s"resource")), (%s"identifiers", optIdentifiers r.identifiers),
      (%s"create", optRef r.create), (%s"put", optRef r.put), (%s"read", optRef r.read), (%s"update", optRef r.update),
      (%s"delete", optRef r.delete), (%s"list", optRef r.list), (%s"operations", optRefs r.operations),
      (%s"collectionOperations", optRefs r.collectionOperations), (%s"resources", optRefs r.resources)]
  | .unresolved => .ok [(%s"type", some (.string %s"apply"))]

/-- `from_shape`, atelier-json/src/writer.rs:119-281. -/
def fromShape (s : TopLevelShape) : Except Err Json :=
  match optTraits s.traits with
  | .error e => .error e
  | .ok t =>
    match fromKind s.body with
    | .error e => .error e
    | .ok l => .ok (.object (fields ((%s"traits", t) :: l)))

/-- `from_shapes`, atelier-json/src/writer.rs:111-117. -/
def fromShapes (m : Model) : Except Err Json :=
  match mapE (fun s => okMap (fun j => (s.id.display, j)) (fromShape s)) m.shapesList with
  | .error e => .error e
  | .ok js => .ok (.object (AMap.ofList js))

/-- The metadata part of `model_to_json`, atelier-json/src/writer.rs:63-69. -/
def optMetadata (m : Model) : Except Err (Option Json) :=
  if m.hasMetadata then
    match fromEntries m.metadata with
    | .error e => .error e
    | .ok js => .ok (some (.object (AMap.ofList js)))
  else .ok none

/-- `model_to_json`, atelier-json/src/writer.rs:55-73. -/
def modelToJson (m : Model) : Except Err Json :=
  match optMetadata m with
  | .error e => .error e
  | .ok md =>
    match fromShapes m with
    | .error e => .error e
    | .ok ss => .ok (.object (fields [(%s"smithy", some (.string m.version.display)), (%s"metadata", md), (%s"shapes", some ss)]))

end JsonWriter

/-! ### Reader -/

namespace JsonReader

/-- `ErrorKind::Deserialization(REPRESENTATION_NAME, location, ..)`; the debug text of the offending JSON is left out. -/
def derr (loc : Str) : Err := .deserialization %s"JSON AST" loc none

/-- The `Value::Number` arm of `value`, atelier-json/src/reader.rs:410-425. `is_f64`: a float; `is_i64`: an integer in
the range of `i64`; `is_u64`: any `PosInt`; `as i64` wraps. -/
def number : JNum → Except Err Value
  | .float x => .ok (.number (.float x))
  | .negInt n => .ok (.number (.integer n))
  | .posInt n => if n < 2 ^ 63 then .ok (.number (.integer n)) else .ok (.number (.integer (Int.bmod n (2 ^ 64))))

mutual
  /-- `value`, atelier-json/src/reader.rs:406-443. -/
  def value : Json → Except Err Value
    | .null => .ok .none
    | .bool b => .ok (.boolean b)
    | .number n => number n
    | .string s => .ok (.string s)
    | .array vs =>
      match valueList vs with
      | .error e => .error e
      | .ok l => .ok (.array l)
    | .object vs =>
      match valueEntries vs with
      | .error e => .error e
      | .ok l => .ok (.object (AMap.ofList l))
  termination_by structural x => x
  /-- The `collect` at atelier-json/src/reader.rs:428-429. -/
  def valueList : List Json → Except Err (List Value)
    | [] => .ok []
    | j :: js =>
      match value j with
      | .error e => .error e
      | .ok v =>
        match valueList js with
        | .error e => .error e
        | .ok vs => .ok (v :: vs)
  termination_by structural x => x
  /-- The loops at atelier-json/src/reader.rs:437-439 and 110-112 (before collecting into a `ValueMap`). -/
  def valueEntries : List (Str × Json) → Except Err (List (Str × Value))
    | [] => .ok []
    | e :: es =>
      match valueEntry e with
      | .error er => .error er
      | .ok v =>
        match valueEntries es with
        | .error er => .error er
        | .ok vs => .ok (v :: vs)
  termination_by structural x => x
  /-- One iteration. -/
  def valueEntry : Str × Json → Except Err (Str × Value)
    | (k, j) =>
      match value j with
      | .error e => .error e
      | .ok v => .ok (k, v)
  termination_by structural x => x
end

/-- `version`, atelier-json/src/reader.rs:94-105. -/
def version : Option Json → Except Err Version
  | some (.string s) => Version.fromStr s
  | _ => .error (derr %s"JsonReader::version")

/-- `metadata`, atelier-json/src/reader.rs:107-115. -/
def metadata : Option Json → Except Err (AMap Str Value)
  | some (.object vs) =>
    match valueEntries vs with
    | .error e => .error e
    | .ok l => .ok (AMap.ofList l)
  | _ => .ok []

/-- One iteration of `traits`, atelier-json/src/reader.rs:241-243. -/
def traitEntry (e : Str × Json) : Except Err (ShapeID × TraitValue) :=
  match ShapeID.fromStr e.1 with
  | .error er => .error er
  | .ok id =>
    match value e.2 with
    | .error er => .error er
    | .ok v => .ok (id, some v)

/-- `traits`, atelier-json/src/reader.rs:238-246. -/
def traits (o : AMap Str Json) : Except Err Traits :=
  match mapE traitEntry o with
  | .error e => .error e
  | .ok l => .ok (AMap.ofList l)

/-- `if let Some(Value::Object(vs)) = ..get("traits") { x.append_traits(&self.traits(vs)?)? }`,
atelier-json/src/reader.rs:125-127, 263-265, 379-381: the trait map of a fresh element afterwards. -/
def readTraits (j : Option Json) : Except Err Traits :=
  match j with
  | some (.object vs) =>
    match traits vs with
    | .error e => .error e
    | .ok ts =>
      match appendTraits [] ts with
      | (ts', .ok ()) => .ok ts'
      | (_, .error e) => .error e
  | _ => .ok []

/-- `target`, atelier-json/src/reader.rs:358-370. -/
def target : Option Json → Except Err ShapeID
  | some (.object ms) =>
    match AMap.get ms %s"target" with
    | some (.string s) => ShapeID.fromStr s
    | _ => .error (derr %s"JsonReader::target")
  | _ => .error (derr %s"JsonReader::target")

/-- `optional_target`, atelier-json/src/reader.rs:350-356. -/
def optionalTarget (j : Option Json) : Except Err (Option ShapeID) :=
  match j with
  | none => .ok none
  | some j =>
    match target (some j) with
    | .error e => .error e
    | .ok id => .ok (some id)

/-- `target_list`, atelier-json/src/reader.rs:329-348. -/
def targetList : Option Json → Except Err (List ShapeID)
  | some (.array ms) => mapE (fun j => target (some j)) ms
  | some _ => .error (derr %s"JsonReader::target_list")
  | none => .ok []

/-- `string_value`, atelier-json/src/reader.rs:393-404. -/
def stringValue : Json → Except Err Str
  | .string s => .ok s
  | _ => .error (derr %s"JsonReader::string_value")

/-- One iteration of `renames_hash`, atelier-json/src/reader.rs:284-286. -/
def renameEntry (e : Str × Json) : Except Err (ShapeID × Str) :=
  match ShapeID.fromStr e.1 with
  | .error er => .error er
  | .ok k =>
    match stringValue e.2 with
    | .error er => .error er
    | .ok s =>
      match Identifier.fromStr s with
      | .error er => .error er
      | .ok v => .ok (k, v)

/-- `renames_hash`, atelier-json/src/reader.rs:279-300. -/
def renamesHash : Option Json → Except Err (AMap ShapeID Str)
  | some (.object ms) =>
    match mapE renameEntry ms with
    | .error e => .error e
    | .ok l => .ok (AMap.ofList l)
  | some _ => .error (derr %s"JsonReader::renames_hash")
  | none => .ok []

/-- One iteration of `identifiers_hash`, atelier-json/src/reader.rs:310-313 (what the `println!` prints is in `Commands.lean`). -/
def identifierEntry (e : Str × Json) : Except Err (Str × ShapeID) :=
  match Identifier.fromStr e.1 with
  | .error er => .error er
  | .ok k =>
    match target (some e.2) with
    | .error er => .error er
    | .ok v => .ok (k, v)

/-- `identifiers_hash`, atelier-json/src/reader.rs:302-327. -/
def identifiersHash : Option Json → Except Err (AMap Str ShapeID)
  | some (.object ms) =>
    match mapE identifierEntry ms with
    | .error e => .error e
    | .ok l => .ok (AMap.ofList l)
  | some _ => .error (derr %s"JsonReader::renames_hash")
  | none => .ok []

/-- One iteration of `members`, atelier-json/src/reader.rs:251-274. -/
def memberEntry (e : Str × Json) : Except Err MemberShape :=
  match e.2 with
  | .object obj =>
    match AMap.get obj %s"target" with
    | some (.string t) =>
      match ShapeID.fromStr t with
      | .error er => .error er
      | .ok target =>
        match Identifier.fromStr e.1 with
        | .error er => .error er
        | .ok name =>
          match readTraits (AMap.get obj %s"traits") with
          | .error er => .error er
          | .ok ts => .ok ⟨name, ts, target⟩
    | _ => .error (derr %s"JsonReader::members/target")
  | _ => .error (derr %s"JsonReader::members")

/-- `members`, atelier-json/src/reader.rs:248-277, with the caller's `if let Some(Value::Object(..))` (156-160, 165-169)
and `StructureOrUnion::with_members`. -/
def members (j : Option Json) : Except Err (AMap Str MemberShape) :=
  match j with
  | some (.object vs) =>
    match mapE memberEntry vs with
    | .error e => .error e
    | .ok l => .ok (withMembers l)
  | _ => .ok (withMembers [])

/-- `member`, atelier-json/src/reader.rs:372-391: the name is always `member`. -/
def member : Option Json → Except Err MemberShape
  | some (.object ms) =>
    match AMap.get ms %s"target" with
    | some (.string t) =>
      match ShapeID.fromStr t with
      | .error e => .error e
      | .ok target =>
        match readTraits (AMap.get ms %s"traits") with
        | .error e => .error e
        | .ok ts => .ok ⟨memberMember, ts, target⟩
    | _ => .error (derr %s"JsonReader::target")
  | _ => .error (derr %s"JsonReader::target")

/-- The service branch, atelier-json/src/reader.rs:173-183. -/
def service (outer : Json) : Except Err ShapeKind :=
  match outer.get %s"version" with
  | some (.string v) => do
    let s ← Service.new v
    let ops ← targetList (outer.get %s"operations")
    let res ← targetList (outer.get %s"resources")
    let ren ← renamesHash (outer.get %s"rename")
    .ok (.service ⟨s.version, arrayAppend s.operations ops, arrayAppend s.resources res, ren⟩)
  | _ => .error (.invalidVersionNumber none)

/-- The operation branch, atelier-json/src/reader.rs:184-193. -/
def operation (outer : Json) : Except Err ShapeKind := do
  let input ← optionalTarget (outer.get %s"input")
  let output ← optionalTarget (outer.get %s"output")
  let errors ← targetList (outer.get %s"errors")
  .ok (.operation ⟨input, output, arrayAppend [] errors⟩)

/-- The resource branch, atelier-json/src/reader.rs:194-220. -/
def resource (outer : Json) : Except Err ShapeKind := do
  let ids ← identifiersHash (outer.get %s"identifiers")
  let create ← optionalTarget (outer.get %s"create")
  let put ← optionalTarget (outer.get %s"put")
  let read ← optionalTarget (outer.get %s"read")
  let update ← optionalTarget (outer.get %s"update")
  let delete ← optionalTarget (outer.get %s"delete")
  let list ← optionalTarget (outer.get %s"list")
  let ops ← targetList (outer.get %s"operations")
  let cops ← targetList (outer.get %s"collectionOperations")
  let res ← targetList (outer.get %s"resources")
  .ok (.resource ⟨ids, create, put, read, update, delete, list, arrayAppend [] ops, arrayAppend [] cops, arrayAppend [] res⟩)

/-- `shape`, atelier-json/src/reader.rs:135-236. -/
def shape (outer : Json) : Except Err ShapeKind :=
  match outer.get %s"type" with
  | some (.string s) =>
    match Simple.fromStr s with
    | .ok st => .ok (.simple st)
    | .error _ =>
      if s = %s"apply" then .ok .unresolved
      else if s = %s"list" then do
        let m ← member (outer.get %s"member")
        let m ← listFrom m
        .ok (.list m)
      else if s = %s"set" then do
        let m ← member (outer.get %s"member")
        let m ← listFrom m
        .ok (.set m)
      else if s = %s"map" then do
        let k ← member (outer.get %s"key")
        let v ← member (outer.get %s"value")
        .ok (.map k v)
      else if s = %s"structure" then do
        let ms ← members (outer.get %s"members")
        .ok (.struct ms)
      else if s = %s"union" then do
        let ms ← members (outer.get %s"members")
        .ok (.union ms)
      else if s = %s"service" then service outer
      else if s = %s"operation" then operation outer
      else if s = %s"resource" then resource outer
      else .error (derr %s"JsonReader::shape/type")
  | _ => .error (derr %s"JsonReader::shape")

/-- One iteration of `shapes`, atelier-json/src/reader.rs:121-129. The result is labelled with the shape's id (the code
labels it with the namespace, which it never uses). -/
def shapeEntry (e : Str × Json) : Except Err (ShapeID × TopLevelShape) :=
  match ShapeID.fromStr e.1 with
  | .error er => .error er
  | .ok id =>
    match shape e.2 with
    | .error er => .error er
    | .ok body =>
      match readTraits (e.2.get %s"traits") with
      | .error er => .error er
      | .ok ts => .ok (id, ⟨id, ts, body⟩)

/-- `shapes`, atelier-json/src/reader.rs:117-133. -/
def shapes : Option Json → Except Err (List (ShapeID × TopLevelShape))
  | some (.object vs) => mapE shapeEntry vs
  | _ => .ok []

/-- `model`, atelier-json/src/reader.rs:69-92; `ModelReader::read` (55-65) is this after parsing the text. -/
def model : Json → Except Err Model
  | .object vs =>
    match version (AMap.get vs %s"smithy") with
    | .error e => .error e
    | .ok v =>
      match metadata (AMap.get vs %s"metadata") with
      | .error e => .error e
      | .ok md =>
        match (Model.new v).addAllMetadata md with
        | (_, .error e) => .error e
        | (m, .ok ()) =>
          match shapes (AMap.get vs %s"shapes") with
          | .error e => .error e
          | .ok ss =>
            match m.addAllShapes ss with
            | (_, .error e) => .error e
            | (m', .ok ()) => .ok m'
  | _ => .error (derr %s"JsonReader::model")

end JsonReader
end Verif
