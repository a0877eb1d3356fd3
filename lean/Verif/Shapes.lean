/-
Model of atelier-core/src/model/shapes/{mod,aggregate,service,simple}.rs.
-/
import Verif.Values

namespace Verif

/-- `TraitValue`, atelier-core/src/model/shapes/mod.rs:42. -/
abbrev TraitValue := Option Value

/-- `AppliedTraits`, atelier-core/src/model/shapes/mod.rs:47. -/
abbrev Traits := AMap ShapeID TraitValue

/-- `PartialEq for HashMap<K, V>` of the standard library, with `veq` the `==` of the values: equal sizes, and every
entry of `a` is found in `b` with an equal value. -/
def hmEq {K V : Type} [DecidableEq K] (veq : V → V → Bool) (a b : AMap K V) : Bool :=
  a.length == b.length && a.all fun e => match AMap.get b e.1 with | some w => veq e.2 w | none => false

/-- `PartialEq for Vec<T>`. -/
def vecEq {α : Type} (eq : α → α → Bool) : List α → List α → Bool
  | [], [] => true
  | x :: xs, y :: ys => eq x y && vecEq eq xs ys
  | _, _ => false

/-- `PartialEq for Option<T>`. -/
def optEq {α : Type} (eq : α → α → Bool) : Option α → Option α → Bool
  | none, none => true
  | some x, some y => eq x y
  | _, _ => false

/-- `MemberShape`, atelier-core/src/model/shapes/aggregate.rs:16-20. -/
structure MemberShape where
  id : Str
  traits : Traits
  target : ShapeID
  deriving Repr

/-- `Service`, atelier-core/src/model/shapes/service.rs:13-18. -/
structure Service where
  version : Str
  operations : List ShapeID
  resources : List ShapeID
  renames : AMap ShapeID Str
  deriving Repr, DecidableEq

/-- `Operation`, atelier-core/src/model/shapes/service.rs:24-28. -/
structure Operation where
  input : Option ShapeID
  output : Option ShapeID
  errors : List ShapeID
  deriving Repr, DecidableEq

/-- `Resource`, atelier-core/src/model/shapes/service.rs:34-45. -/
structure Resource where
  identifiers : AMap Str ShapeID
  create : Option ShapeID
  put : Option ShapeID
  read : Option ShapeID
  update : Option ShapeID
  delete : Option ShapeID
  list : Option ShapeID
  operations : List ShapeID
  collectionOperations : List ShapeID
  resources : List ShapeID
  deriving Repr, DecidableEq

/-- `ShapeKind`, atelier-core/src/model/shapes/mod.rs:246-270. `ListOrSet`, `Map` and `StructureOrUnion`
(aggregate.rs:26-48) are inlined as their fields. -/
inductive ShapeKind where
  | simple (s : Simple)
  | list (member : MemberShape)
  | set (member : MemberShape)
  | map (key value : MemberShape)
  | struct (members : AMap Str MemberShape)
  | union (members : AMap Str MemberShape)
  | service (s : Service)
  | operation (o : Operation)
  | resource (r : Resource)
  | unresolved
  deriving Repr

/-- `TopLevelShape`, atelier-core/src/model/shapes/mod.rs:235-239. -/
structure TopLevelShape where
  id : ShapeID
  traits : Traits
  body : ShapeKind
  deriving Repr

namespace ShapeKind

/-- `ShapeKind::is_simple` etc., atelier-core/src/model/shapes/mod.rs:333-342 (`is_as!`/`is_only!`,
macros.rs:35-62); `TopLevelShape` delegates (451-460). -/
def isSimple : ShapeKind → Bool | .simple _ => true | _ => false
@[inherit_doc isSimple] def isList : ShapeKind → Bool | .list _ => true | _ => false
@[inherit_doc isSimple] def isSet : ShapeKind → Bool | .set _ => true | _ => false
@[inherit_doc isSimple] def isMap : ShapeKind → Bool | .map _ _ => true | _ => false
@[inherit_doc isSimple] def isStructure : ShapeKind → Bool | .struct _ => true | _ => false
@[inherit_doc isSimple] def isUnion : ShapeKind → Bool | .union _ => true | _ => false
@[inherit_doc isSimple] def isService : ShapeKind → Bool | .service _ => true | _ => false
@[inherit_doc isSimple] def isOperation : ShapeKind → Bool | .operation _ => true | _ => false
@[inherit_doc isSimple] def isResource : ShapeKind → Bool | .resource _ => true | _ => false
@[inherit_doc isSimple] def isUnresolved : ShapeKind → Bool | .unresolved => true | _ => false

end ShapeKind

/-! ### Traits -/

/-- `==` on `TraitValue` (`Option<Value>`). -/
def traitValueEq : TraitValue → TraitValue → Bool := optEq Value.veq

/-- `merge_traits`, atelier-core/src/model/shapes/mod.rs:544-569. -/
def mergeTraits (id : ShapeID) (left right : TraitValue) : Except Err TraitValue :=
  match left, right with
  | some (.array l), some (.array r) =>
    if l.isEmpty then .ok (some (.array r))
    else if r.isEmpty then .ok (some (.array l))
    else .ok (some (.array (l ++ r)))
  | left, right => if traitValueEq left right then .ok left else .error (.mergeTraitConflict id)

/-- `HasTraits::apply_with_value` (`has_traits_impl!`), atelier-core/src/model/shapes/mod.rs:286-302, on the trait
map of the element. -/
def applyWithValue (ts : Traits) (id : ShapeID) (v : TraitValue) : Traits × Except Err Unit :=
  if id.isMember then (ts, .error (.shapeIDExpected id))
  else match AMap.get ts id with
    | some old =>
      match mergeTraits id old v with
      | .ok new => (AMap.insert ts id new, .ok ())
      | .error e => (ts, .error e)
    | none => (AMap.insert ts id v, .ok ())

/-- `HasTraits::append_traits`, atelier-core/src/model/shapes/mod.rs:97-102, and `copy_traits`,
atelier-core/src/model/mod.rs:305-310: apply each trait in turn, stopping at the first error (earlier ones stay
applied). -/
def appendTraits (ts : Traits) : List (ShapeID × TraitValue) → Traits × Except Err Unit
  | [] => (ts, .ok ())
  | (id, v) :: rest =>
    match applyWithValue ts id v with
    | (ts', .ok ()) => appendTraits ts' rest
    | (ts', .error e) => (ts', .error e)

/-- `HasTraits::remove_trait`, atelier-core/src/model/shapes/mod.rs:105-107. -/
def removeTrait (ts : Traits) (id : ShapeID) : Traits := AMap.erase ts id

/-- `HasTraits::has_trait`, atelier-core/src/model/shapes/mod.rs:60-62. -/
def hasTrait (ts : Traits) (id : ShapeID) : Bool := AMap.contains ts id

/-! ### Equality without traits -/

/-- `NonTraitEq for MemberShape`, atelier-core/src/model/shapes/aggregate.rs:54-58. -/
def MemberShape.equalWithoutTraits (a b : MemberShape) : Bool := identEq a.id b.id && a.target.ceq b.target

/-- Derived `PartialEq for Service`, atelier-core/src/model/shapes/service.rs:12. -/
def Service.seq (a b : Service) : Bool :=
  a.version == b.version && vecEq ShapeID.ceq a.operations b.operations &&
  vecEq ShapeID.ceq a.resources b.resources && hmEq identEq a.renames b.renames

/-- Derived `PartialEq for Operation`, atelier-core/src/model/shapes/service.rs:23. -/
def Operation.oeq (a b : Operation) : Bool :=
  optEq ShapeID.ceq a.input b.input && optEq ShapeID.ceq a.output b.output && vecEq ShapeID.ceq a.errors b.errors

/-- Derived `PartialEq for Resource`, atelier-core/src/model/shapes/service.rs:33. -/
def Resource.req (a b : Resource) : Bool :=
  hmEq ShapeID.ceq a.identifiers b.identifiers &&
  optEq ShapeID.ceq a.create b.create && optEq ShapeID.ceq a.put b.put && optEq ShapeID.ceq a.read b.read &&
  optEq ShapeID.ceq a.update b.update && optEq ShapeID.ceq a.delete b.delete && optEq ShapeID.ceq a.list b.list &&
  vecEq ShapeID.ceq a.operations b.operations && vecEq ShapeID.ceq a.collectionOperations b.collectionOperations &&
  vecEq ShapeID.ceq a.resources b.resources

/-- The closure over member names at atelier-core/src/model/shapes/mod.rs:362-366 and 369-374:
`l.members.keys().all(|k| l.member(k).unwrap().equal_without_traits(r.member(k).unwrap()))`; `all` stops at the first
`false`, and `r.member(k).unwrap()` panics when `r` has no member `k`. -/
def membersAllEqual : List (Str × MemberShape) → AMap Str MemberShape → Except Err Bool
  | [], _ => .ok true
  | (k, m) :: rest, r =>
    match AMap.get r k with
    | none => .error .panic
    | some m' => if m.equalWithoutTraits m' then membersAllEqual rest r else .ok false

/-- The structure and union cases of `equal_without_traits`, atelier-core/src/model/shapes/mod.rs:360-376. -/
def membersEqual (l r : AMap Str MemberShape) : Except Err Bool :=
  if l.length == r.length then membersAllEqual l r else .ok false

/-- The `match` on the two bodies in `equal_without_traits`, atelier-core/src/model/shapes/mod.rs:350-383. -/
def ShapeKind.equalWithoutTraits : ShapeKind → ShapeKind → Except Err Bool
  | .simple l, .simple r => .ok (l == r)
  | .list l, .list r => .ok (l.equalWithoutTraits r)
  | .set l, .set r => .ok (l.equalWithoutTraits r)
  | .map lk lv, .map rk rv => .ok (lk.equalWithoutTraits rk && lv.equalWithoutTraits rv)
  | .struct l, .struct r => membersEqual l r
  | .union l, .union r => membersEqual l r
  | .service l, .service r => .ok (l.seq r)
  | .operation l, .operation r => .ok (l.oeq r)
  | .resource l, .resource r => .ok (l.req r)
  | .unresolved, .unresolved => .ok true
  | _, _ => .ok false

/-- `NonTraitEq for TopLevelShape`, atelier-core/src/model/shapes/mod.rs:349-384. -/
def TopLevelShape.equalWithoutTraits (a b : TopLevelShape) : Except Err Bool :=
  if a.id.ceq b.id then a.body.equalWithoutTraits b.body else .ok false

/-! ### Derived equality including traits -/

/-- `==` on `AppliedTraits`. -/
def traitsEq (a b : Traits) : Bool := hmEq traitValueEq a b

/-- Derived `PartialEq for MemberShape`, atelier-core/src/model/shapes/aggregate.rs:14. -/
def MemberShape.meq (a b : MemberShape) : Bool := identEq a.id b.id && traitsEq a.traits b.traits && a.target.ceq b.target

/-- Derived `PartialEq for ShapeKind`, atelier-core/src/model/shapes/mod.rs:245. -/
def ShapeKind.keq : ShapeKind → ShapeKind → Bool
  | .simple l, .simple r => l == r
  | .list l, .list r => l.meq r
  | .set l, .set r => l.meq r
  | .map lk lv, .map rk rv => lk.meq rk && lv.meq rv
  | .struct l, .struct r => hmEq MemberShape.meq l r
  | .union l, .union r => hmEq MemberShape.meq l r
  | .service l, .service r => l.seq r
  | .operation l, .operation r => l.oeq r
  | .resource l, .resource r => l.req r
  | .unresolved, .unresolved => true
  | _, _ => false

/-- Derived `PartialEq for TopLevelShape`, atelier-core/src/model/shapes/mod.rs:234. -/
def TopLevelShape.teq (a b : TopLevelShape) : Bool := a.id.ceq b.id && traitsEq a.traits b.traits && a.body.keq b.body

/-! ### Aggregate shapes -/

/-- `MEMBER_MEMBER`, `MEMBER_KEY`, `MEMBER_VALUE`, atelier-core/src/syntax.rs. -/
def memberMember : Str := %s"member"
@[inherit_doc memberMember] def memberKey : Str := %s"key"
@[inherit_doc memberMember] def memberValue : Str := %s"value"

/-- `MemberShape::new`, atelier-core/src/model/shapes/aggregate.rs:74-76. -/
def MemberShape.new (id : Str) (target : ShapeID) : MemberShape := ⟨id, [], target⟩

/-- `ListOrSet::new`, atelier-core/src/model/shapes/aggregate.rs:102-106. -/
def listNew (target : ShapeID) : MemberShape := MemberShape.new memberMember target

/-- `ListOrSet::from`, atelier-core/src/model/shapes/aggregate.rs:109-112 (asserts the member's name, exactly). -/
def listFrom (m : MemberShape) : Except Err MemberShape := if m.id = memberMember then .ok m else .error .panic

/-- `ListOrSet::set_member`, atelier-core/src/model/shapes/aggregate.rs:120-123. -/
def listSetMember (l m : MemberShape) : Except Err MemberShape := if identEq m.id l.id then .ok m else .error .panic

/-- `StructureOrUnion::add_a_member`, atelier-core/src/model/shapes/aggregate.rs:226-228. -/
def addAMember (ms : AMap Str MemberShape) (m : MemberShape) : AMap Str MemberShape := AMap.insert ms m.id m

/-- `StructureOrUnion::add_member`, atelier-core/src/model/shapes/aggregate.rs:221-224. -/
def addMember (ms : AMap Str MemberShape) (name : Str) (target : ShapeID) : AMap Str MemberShape :=
  addAMember ms (MemberShape.new name target)

/-- `StructureOrUnion::remove_member`, atelier-core/src/model/shapes/aggregate.rs:212-214. -/
def removeMember (ms : AMap Str MemberShape) (name : Str) : AMap Str MemberShape := AMap.erase ms name

/-- `StructureOrUnion::with_members`, atelier-core/src/model/shapes/aggregate.rs:186-194. -/
def withMembers (l : List MemberShape) : AMap Str MemberShape := l.foldl addAMember []

/-- `StructureOrUnion::member`, atelier-core/src/model/shapes/aggregate.rs:207-209. -/
def structMember (ms : AMap Str MemberShape) (name : Str) : Option MemberShape := AMap.get ms name

/-- `StructureOrUnion::has_member`, atelier-core/src/model/shapes/aggregate.rs:202-204. -/
def structHasMember (ms : AMap Str MemberShape) (name : Str) : Bool := !AMap.contains ms name

namespace TopLevelShape

/-- `TopLevelShape::is_unresolved`, atelier-core/src/model/shapes/mod.rs:459. -/
def isUnresolved (s : TopLevelShape) : Bool := s.body.isUnresolved

/-- `TopLevelShape::has_members`, atelier-core/src/model/shapes/mod.rs:474-476. -/
def hasMembers (s : TopLevelShape) : Bool := match s.body with | .simple _ => false | .unresolved => false | _ => true

/-- `TopLevelShape::member`, atelier-core/src/model/shapes/mod.rs:488-521. -/
def member (s : TopLevelShape) (name : Str) : Option MemberShape :=
  match s.body with
  | .simple _ => none
  | .list m => if identEq name memberMember then some m else none
  | .set m => if identEq name memberMember then some m else none
  | .map k v => if identEq name memberKey then some k else if identEq name memberValue then some v else none
  | .struct ms => structMember ms name
  | .union ms => structMember ms name
  | _ => none

/-- `TopLevelShape::has_member`, atelier-core/src/model/shapes/mod.rs:481-483. -/
def hasMember (s : TopLevelShape) (name : Str) : Bool := (s.member name).isSome

/-- `TopLevelShape::is_prelude_shape`, atelier-core/src/model/shapes/mod.rs:467-469 (compares the text). -/
def isPreludeShape (s : TopLevelShape) : Bool := s.id.ns == %s"smithy.api"

/-- `TopLevelShape::new`, atelier-core/src/model/shapes/mod.rs:408-414. -/
def new (id : ShapeID) (body : ShapeKind) : TopLevelShape := ⟨id, [], body⟩

end TopLevelShape

/-! ### Services, operations, resources -/

/-- `array_member!`'s `set_xs`, atelier-core/src/macros.rs:177-179. -/
def arraySet (_xs new : List ShapeID) : List ShapeID := new

/-- `array_member!`'s `add_x`, atelier-core/src/macros.rs:182-184. -/
def arrayAdd (xs : List ShapeID) (x : ShapeID) : List ShapeID := xs ++ [x]

/-- `array_member!`'s `append_xs`, atelier-core/src/macros.rs:187-191. -/
def arrayAppend (xs ys : List ShapeID) : List ShapeID := ys.foldl arrayAdd xs

/-- `array_member!`'s `remove_x`, atelier-core/src/macros.rs:194-196 (`retain(|item| item != x)`). -/
def arrayRemove (xs : List ShapeID) (x : ShapeID) : List ShapeID := xs.filter fun i => !i.ceq x

/-- `Service::new`, atelier-core/src/model/shapes/service.rs:52-60. -/
def Service.new (version : Str) : Except Err Service :=
  if version.isEmpty then .error .panic else .ok ⟨version, [], [], []⟩

/-- `Service::set_version`, atelier-core/src/model/shapes/service.rs:68-71. -/
def Service.setVersion (s : Service) (version : Str) : Except Err Service :=
  if version.isEmpty then .error .panic else .ok { s with version := version }

/-- `Service::add_operation_shape`, atelier-core/src/model/shapes/service.rs:76-80. -/
def Service.addOperationShape (s : Service) (sh : TopLevelShape) : Service :=
  if sh.body.isOperation then { s with operations := arrayAdd s.operations sh.id } else s

/-- `Service::add_resource_shape`, atelier-core/src/model/shapes/service.rs:85-89. -/
def Service.addResourceShape (s : Service) (sh : TopLevelShape) : Service :=
  if sh.body.isResource then { s with resources := arrayAdd s.resources sh.id } else s

/-- The guard at atelier-core/src/model/shapes/service.rs:111-115, 124-128, 137-141. -/
def isDataShape (k : ShapeKind) : Bool := !(k.isOperation || k.isResource || k.isService || k.isUnresolved)

/-- `Operation::set_input_shape`, atelier-core/src/model/shapes/service.rs:110-118. -/
def Operation.setInputShape (o : Operation) (sh : TopLevelShape) : Operation :=
  if isDataShape sh.body then { o with input := some sh.id } else o

/-- `Operation::set_output_shape`, atelier-core/src/model/shapes/service.rs:123-131. -/
def Operation.setOutputShape (o : Operation) (sh : TopLevelShape) : Operation :=
  if isDataShape sh.body then { o with output := some sh.id } else o

/-- `Operation::add_error_shape`, atelier-core/src/model/shapes/service.rs:136-144. -/
def Operation.addErrorShape (o : Operation) (sh : TopLevelShape) : Operation :=
  if isDataShape sh.body then { o with errors := arrayAdd o.errors sh.id } else o

/-- The lifecycle operations of a resource, atelier-core/src/model/shapes/service.rs:36-41. -/
inductive Lifecycle where
  | create | put | read | update | delete | list
  deriving DecidableEq, Repr

/-- The accessor generated by `optional_member!` (macros.rs:147-149) for each lifecycle operation. -/
def Resource.lifecycle (r : Resource) : Lifecycle → Option ShapeID
  | .create => r.create | .put => r.put | .read => r.read
  | .update => r.update | .delete => r.delete | .list => r.list

/-- The setter/unsetter generated by `optional_member!` (macros.rs:152-159). -/
def Resource.setLifecycle (r : Resource) (l : Lifecycle) (v : Option ShapeID) : Resource :=
  match l with
  | .create => { r with create := v } | .put => { r with put := v } | .read => { r with read := v }
  | .update => { r with update := v } | .delete => { r with delete := v } | .list => { r with list := v }

/-- `Resource::set_create_operation_shape` and the five alike, atelier-core/src/model/shapes/service.rs:217-266. -/
def Resource.setLifecycleShape (r : Resource) (l : Lifecycle) (sh : TopLevelShape) : Resource :=
  if sh.body.isOperation then r.setLifecycle l (some sh.id) else r

/-- `Resource::has_any_resource_operation`, atelier-core/src/model/shapes/service.rs:205-212. -/
def Resource.hasAnyResourceOperation (r : Resource) : Bool :=
  r.create.isSome || r.put.isSome || r.read.isSome || r.update.isSome || r.delete.isSome || r.list.isSome

/-- `Resource::add_operation_shape`, atelier-core/src/model/shapes/service.rs:271-275. -/
def Resource.addOperationShape (r : Resource) (sh : TopLevelShape) : Resource :=
  if sh.body.isOperation then { r with operations := arrayAdd r.operations sh.id } else r

/-- `Resource::add_collection_operation_shape`, atelier-core/src/model/shapes/service.rs:280-284. -/
def Resource.addCollectionOperationShape (r : Resource) (sh : TopLevelShape) : Resource :=
  if sh.body.isOperation then { r with collectionOperations := arrayAdd r.collectionOperations sh.id } else r

/-- `Resource::add_resource_shape`, atelier-core/src/model/shapes/service.rs:289-293. -/
def Resource.addResourceShape (r : Resource) (sh : TopLevelShape) : Resource :=
  if sh.body.isResource then { r with resources := arrayAdd r.resources sh.id } else r

/-- `Resource::identifier`, atelier-core/src/model/shapes/service.rs:179-181. -/
def Resource.identifier (r : Resource) (name : Str) : Option ShapeID := AMap.get r.identifiers name

/-- `Resource::has_identifier`, atelier-core/src/model/shapes/service.rs:173-175. -/
def Resource.hasIdentifier (r : Resource) (name : Str) : Bool := !AMap.contains r.identifiers name

/-- `Resource::add_identifier`, atelier-core/src/model/shapes/service.rs:189-191. -/
def Resource.addIdentifier (r : Resource) (name : Str) (target : ShapeID) : Resource :=
  { r with identifiers := AMap.insert r.identifiers name target }

/-- `Resource::remove_identifier`, atelier-core/src/model/shapes/service.rs:184-186. -/
def Resource.removeIdentifier (r : Resource) (name : Str) : Resource :=
  { r with identifiers := AMap.erase r.identifiers name }

/-- `Operation::default`, atelier-core/src/model/shapes/service.rs:97-103. -/
def Operation.default : Operation := ⟨none, none, []⟩

/-- `Resource::default`, atelier-core/src/model/shapes/service.rs:150-163. -/
def Resource.default : Resource := ⟨[], none, none, none, none, none, none, [], [], []⟩

end Verif
