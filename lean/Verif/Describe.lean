/-
Model of atelier-describe/src/document/writer.rs: documents about semantic models.

Documents of the crate somedoc are modelled as lists of blocks; what that crate does with them is not modelled. A label of somedoc is the text and the
prefix it is made from (`Label::safe_from` replaces characters that a label must not have). The order of hash maps and sets is that of the lists in
the model.
-/
import Verif.Model
import Verif.Lines

namespace Verif
namespace Describe

/-- `somedoc::model::block::Label`, as the arguments of `Label::safe_from`. -/
structure Label where
  text : Str
  pre : Str
  deriving DecidableEq, Repr

/-- `InlineContent`: spans in three styles, links in the document, and links out of it. -/
inductive Inline where
  | plain (s : Str)
  | bold (s : Str)
  | code (s : Str)
  | link (label : Label) (caption : Str)
  | external (url caption : Str)
  deriving DecidableEq, Repr

/-- `Cell`. -/
inductive Cell where
  | plain (s : Str)
  | code (s : Str)
  | skip
  deriving DecidableEq, Repr

/-- `BlockContent`. The items of lists have no blocks in them; the level of a heading is 1 for a section. -/
inductive Block where
  | heading (level : Nat) (title : Str) (label : Option Label)
  | paragraph (content : List Inline)
  | list (items : List (List Inline))
  | table (columns : List Str) (rows : List (List Cell))
  | quote (content : List Block)

/-- `Document`. -/
structure Document where
  title : Str
  blocks : List Block

mutual
  /-- `Display for Value`, atelier-core/src/model/values.rs:200-225. -/
  def showValue (f : Fmt) : Value → Str
    | .array vs => %s"[ " ++ joinWith %s", " (showArray f vs) ++ %s" ]"
    | .object vs => %s"{ " ++ joinWith %s", " (showObject f vs) ++ %s" }"
    | .number n => showNumber f n
    | .boolean b => showBool b
    | .string s => '"' :: s ++ ['"']
    | .none => %s"None"
  termination_by structural x => x
  /-- The texts of the elements of an array. -/
  def showArray (f : Fmt) : List Value → List Str
    | [] => []
    | v :: vs => showValue f v :: showArray f vs
  termination_by structural x => x
  /-- The texts of the entries of an object. -/
  def showObject (f : Fmt) : List (Str × Value) → List Str
    | [] => []
    | e :: es => showEntry f e :: showObject f es
  termination_by structural x => x
  /-- One of them. -/
  def showEntry (f : Fmt) : Str × Value → Str
    | (k, v) => k ++ %s": " ++ showValue f v
  termination_by structural x => x
end

/-- `(String, Option<String>, Option<String>)`: trait, path and value. -/
abbrev TraitRow := Str × Option Str × Option Str

mutual
  /-- `trait_value`, atelier-describe/src/document/writer.rs:194-228. -/
  def traitValue (f : Fmt) (id : Str) (pre : Option Str) : Value → List TraitRow
    | .boolean b => [(id, pre, some (showBool b))]
    | .number n => [(id, pre, some (showNumber f n))]
    | .string s => [(id, pre, some s)]
    | .array vs => if vs.isEmpty then [(id, none, none)] else arrayRows f id 0 vs
    | .object vs =>
      if vs.isEmpty then [(id, none, none)]
      else ((objectRows f id vs).mergeSort fun a b => strLe a.1 b.1).flatMap (·.2)
    | .none => [(id, none, none)]
  termination_by structural x => x
  /-- The loop at atelier-describe/src/document/writer.rs:208-210; `i` is the index of the first element. -/
  def arrayRows (f : Fmt) (id : Str) (i : Nat) : List Value → List TraitRow
    | [] => []
    | v :: vs => traitValue f id (some ('[' :: showNat i ++ %s"]")) v ++ arrayRows f id (i + 1) vs
  termination_by structural x => x
  /-- The rows of each entry, with its key; the code sorts the keys first and then finds each value by its key
  (atelier-describe/src/document/writer.rs:217-222). -/
  def objectRows (f : Fmt) (id : Str) : List (Str × Value) → List (Str × List TraitRow)
    | [] => []
    | e :: es => entryRows f id e :: objectRows f id es
  termination_by structural x => x
  /-- One of them. -/
  def entryRows (f : Fmt) (id : Str) : Str × Value → Str × List TraitRow
    | (k, v) => (k, traitValue f id (some ('.' :: k)) v)
  termination_by structural x => x
end

/-- `prelude_namespace_id`, atelier-core/src/prelude.rs. -/
def preludeNamespace : Str := %s"smithy.api"

/-- `ShapeID::new_unchecked(PRELUDE_NAMESPACE, TRAIT_DOCUMENTATION, None)`. -/
def docTrait : ShapeID := ⟨preludeNamespace, %s"documentation", none⟩
/-- `ShapeID::new_unchecked(PRELUDE_NAMESPACE, TRAIT_EXTERNALDOCUMENTATION, None)`. -/
def extDocTrait : ShapeID := ⟨preludeNamespace, %s"externalDocumentation", none⟩

/-- The derived `Ord for ShapeID` (atelier-core/src/model/identity.rs:61): namespace, then name, then member, where no member comes first. -/
def idLe (a b : ShapeID) : Bool :=
  if a.ns ≠ b.ns then strLe a.ns b.ns
  else if a.name ≠ b.name then strLe a.name b.name
  else match a.member, b.member with
    | none, _ => true
    | some _, none => false
    | some x, some y => strLe x y

/-- The loop of `describe_traits`, atelier-describe/src/document/writer.rs:238-252, for one trait. The code sorts the ids and finds each value by its id. -/
def rowsOfTrait (f : Fmt) (e : ShapeID × TraitValue) : List TraitRow :=
  if !e.1.ceq docTrait && !e.1.ceq extDocTrait then
    let id := if identEq e.1.ns preludeNamespace then e.1.name else e.1.display
    match e.2 with
    | some value => traitValue f id none value
    | none => [(id, none, none)]
  else []

/-- The two kinds of cells at atelier-describe/src/document/writer.rs:263-272. -/
def codeOrSkip : Option Str → Cell
  | some v => .code v
  | none => .skip

/-- `describe_traits`, atelier-describe/src/document/writer.rs:230-277. -/
def describeTraits (f : Fmt) (ts : Traits) : List Block :=
  let traits := (ts.mergeSort fun a b => idLe a.1 b.1).flatMap (rowsOfTrait f)
  if traits.isEmpty then []
  else [.table [%s"Trait ID", %s"Path", %s"Value"] (traits.map fun r => [.plain r.1, codeOrSkip r.2.1, codeOrSkip r.2.2])]

/-- `describe_documentation`, atelier-describe/src/document/writer.rs:279-303; `as_string().unwrap()` panics. -/
def describeDocumentation (f : Fmt) (ts : Traits) : Except Err (List Block) :=
  let rest : List Block :=
    (match AMap.get ts extDocTrait with
    | some (some (.object o)) =>
      let links := o.map fun (e : Str × Value) => Inline.external (showValue f e.2) e.1
      if links.isEmpty then [] else [.paragraph (.plain %s"See also: " :: links)]
    | _ => []) ++ describeTraits f ts
  match AMap.get ts docTrait with
  | some (some (.string s)) => .ok (.paragraph [.plain s] :: rest)
  | some (some _) => .error .panic
  | _ => .ok rest

/-- `shape_id_to_label`, atelier-describe/src/document/writer.rs:305-314. -/
def shapeIdToLabel (source : ShapeID) : Label :=
  match source.member with
  | some member => ⟨source.name ++ %s"_" ++ member, %s"member"⟩
  | none => ⟨source.name, %s"shape"⟩

/-- `shape_link`, atelier-describe/src/document/writer.rs:316-332. -/
def shapeLink (source target : ShapeID) : Inline :=
  if identEq source.ns target.ns then
    .link (shapeIdToLabel target) (match source.member with
      | some member => target.name ++ %s"$" ++ member
      | none => target.name)
  else .code target.display

/-- One step after the other. -/
def andThen (a b : Except Err (List Block)) : Except Err (List Block) :=
  match a with
  | .error e => .error e
  | .ok s =>
    match b with
    | .error e => .error e
    | .ok t => .ok (s ++ t)

/-- A loop that adds blocks. -/
def forAll {α : Type} (f : α → Except Err (List Block)) : List α → Except Err (List Block)
  | [] => .ok []
  | x :: l => andThen (f x) (forAll f l)

/-- `describe_list_or_set`, atelier-describe/src/document/writer.rs:334-340. -/
def describeListOrSet (f : Fmt) (id : ShapeID) (member : MemberShape) : Except Err (List Block) :=
  andThen (.ok [.paragraph [.bold %s"Member type: ", shapeLink id member.target]]) (describeDocumentation f member.traits)

/-- `describe_map`, atelier-describe/src/document/writer.rs:342-353. -/
def describeMap (f : Fmt) (id : ShapeID) (key value : MemberShape) : Except Err (List Block) :=
  andThen (.ok [.paragraph [.bold %s"Key type: ", shapeLink id key.target]]) <|
  andThen (describeDocumentation f key.traits) <|
  andThen (.ok [.paragraph [.bold %s", value type: ", shapeLink id value.target]]) (describeDocumentation f value.traits)

/-- `describe_structure_or_union`, atelier-describe/src/document/writer.rs:355-369: the quote is added after what documents the members. -/
def describeStructureOrUnion (f : Fmt) (id : ShapeID) (members : AMap Str MemberShape) : Except Err (List Block) :=
  if members.isEmpty then .ok []
  else
    andThen (.ok [.heading 3 %s"Members" none]) <|
    andThen (forAll (fun (x : MemberShape) => describeDocumentation f x.traits) (AMap.values members)) <|
    .ok [.quote ((AMap.values members).map fun x => .paragraph [.code x.id, .plain %s": ", shapeLink id x.target])]

/-- The `if shape.has_..() { .. }` of services and resources, atelier-describe/src/document/writer.rs:377-386, 387-396, 497-506, 507-516 and 517-526. -/
def describeShapes (id : ShapeID) (title : Str) (ids : List ShapeID) : List Block :=
  if ids.isEmpty then [] else [.heading 3 title none, .quote [.list (ids.map fun x => [shapeLink id x])]]

/-- `describe_service`, atelier-describe/src/document/writer.rs:371-411. -/
def describeService (id : ShapeID) (s : Service) : List Block :=
  [.paragraph [.bold %s"Service version", .plain %s": ", .plain s.version]] ++
  describeShapes id %s"Operations" s.operations ++ describeShapes id %s"Resources" s.resources ++
  if s.renames.isEmpty then []
  else [.heading 3 %s"Renames" none,
    .quote [.list (s.renames.map fun (e : ShapeID × Str) => [.code e.1.display, .plain %s" renamed to ", .code e.2])]]

/-- The `if let Some(member) = .. { .. }` of operations, atelier-describe/src/document/writer.rs:414-422 and 423-431. -/
def describeType (id : ShapeID) (title : Str) : Option ShapeID → List Block
  | some t => [.quote [.paragraph [.bold title, .plain %s": ", shapeLink id t]]]
  | none => []

/-- `describe_operation`, atelier-describe/src/document/writer.rs:413-445. -/
def describeOperation (id : ShapeID) (o : Operation) : List Block :=
  describeType id %s"Input type" o.input ++ describeType id %s"Output type" o.output ++
  if o.errors.isEmpty then []
  else [.quote [.paragraph [.bold %s"Errors", .plain %s":"], .list (o.errors.map fun x => [shapeLink id x])]]

/-- The `if let Some(member) = .. { .. }` of resources, atelier-describe/src/document/writer.rs:452-493. -/
def lifecycleItem (id : ShapeID) (name : Str) : Option ShapeID → List (List Inline)
  | some t => [[.code name, .plain %s": ", shapeLink id t]]
  | none => []

/-- `Resource::has_any_resource_operation`, atelier-core/src/model/shapes/service.rs:205-212. -/
def hasAnyResourceOperation (r : Resource) : Bool :=
  r.create.isSome || r.put.isSome || r.read.isSome || r.update.isSome || r.delete.isSome || r.list.isSome

/-- `describe_resource`, atelier-describe/src/document/writer.rs:447-527. -/
def describeResource (id : ShapeID) (r : Resource) : List Block :=
  (if hasAnyResourceOperation r then
    [.heading 3 %s"Resource Operations" none,
      .quote [.list (lifecycleItem id %s"create" r.create ++ lifecycleItem id %s"put" r.put ++ lifecycleItem id %s"read" r.read ++
        lifecycleItem id %s"update" r.update ++ lifecycleItem id %s"delete" r.delete ++ lifecycleItem id %s"list" r.list)]]
   else []) ++
  describeShapes id %s"Operations" r.operations ++ describeShapes id %s"Collection Operations" r.collectionOperations ++
  describeShapes id %s"Resources" r.resources

/-- The first `match` of `describe_shape`, atelier-describe/src/document/writer.rs:161-172. -/
def kindText : ShapeKind → Str
  | .simple s => s.display
  | .list _ => %s"list"
  | .set _ => %s"set"
  | .map _ _ => %s"map"
  | .struct _ => %s"structure"
  | .union _ => %s"union"
  | .service _ => %s"service"
  | .operation _ => %s"operation"
  | .resource _ => %s"resource"
  | .unresolved => %s"?"

/-- The second `match` of `describe_shape`, atelier-describe/src/document/writer.rs:181-191. -/
def describeBody (f : Fmt) (id : ShapeID) : ShapeKind → Except Err (List Block)
  | .list m => describeListOrSet f id m
  | .set m => describeListOrSet f id m
  | .map k v => describeMap f id k v
  | .struct ms => describeStructureOrUnion f id ms
  | .union ms => describeStructureOrUnion f id ms
  | .service s => .ok (describeService id s)
  | .operation o => .ok (describeOperation id o)
  | .resource r => .ok (describeResource id r)
  | _ => .ok []

/-- `describe_shape`, atelier-describe/src/document/writer.rs:160-192. -/
def describeShape (f : Fmt) (s : TopLevelShape) : Except Err (List Block) :=
  andThen (.ok [.heading 2 (s.id.name ++ %s" (" ++ kindText s.body ++ %s")") (some (shapeIdToLabel s.id))]) <|
  andThen (describeDocumentation f s.traits) (describeBody f s.id s.body)

/-- `describe_model_shapes`, atelier-describe/src/document/writer.rs:146-158. -/
def describeModelShapes (f : Fmt) (m : Model) (ns : Str) : Except Err (List Block) :=
  let names := m.shapeNames.filter fun id => identEq id.ns ns
  if names.isEmpty then .ok []
  else andThen (.ok [.heading 1 (%s"Namespace " ++ ns) none]) <|
    forAll (fun id => match m.shape id with
      | some s => describeShape f s
      | none => .error .panic) (names.mergeSort fun a b => strLe a.display b.display)

/-- `describe_model_metadata`, atelier-describe/src/document/writer.rs:529-538. -/
def describeModelMetadata (f : Fmt) (m : Model) : List Block :=
  [.table [%s"Key", %s"Value"] (m.metadata.map fun (e : Str × Value) => [.plain e.1, .code (showValue f e.2)])]

/-- `describe_this_model`, atelier-describe/src/document/writer.rs:131-144, and `describe_model` (97-101). -/
def describeModel (f : Fmt) (m : Model) : Except Err Document :=
  match
    andThen (.ok ([.paragraph [.plain (%s"Smithy Version: " ++ m.version.display)]] ++
      if m.hasMetadata then .heading 1 %s"Metadata" none :: describeModelMetadata f m else [])) <|
    if m.hasShapes then forAll (describeModelShapes f m) m.namespaces else .ok [] with
  | .error e => .error e
  | .ok blocks => .ok ⟨%s"Smithy Model", blocks⟩

end Describe
end Verif
