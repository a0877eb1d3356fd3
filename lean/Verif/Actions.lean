/-
Model of atelier-core/src/action/{mod,validate/mod,lint/mod,lint/terms}.rs.
-/
import Verif.Model

namespace Verif

/-- `IssueLevel`, atelier-core/src/action/mod.rs:103-110. -/
inductive IssueLevel where
  | info | warning | error
  deriving DecidableEq, Repr

/-- Derived `PartialOrd for IssueLevel` (mod.rs:102): the order of declaration. -/
def IssueLevel.rank : IssueLevel → Nat
  | .info => 0
  | .warning => 1
  | .error => 2

/-- `Display for IssueLevel`, atelier-core/src/action/mod.rs:190-202. -/
def IssueLevel.display : IssueLevel → Str
  | .info => %s"info"
  | .warning => %s"warning"
  | .error => %s"error"

/-- `ActionIssue`, atelier-core/src/action/mod.rs:120-125. -/
structure Issue where
  reporter : Str
  level : IssueLevel
  message : Str
  locus : Option ShapeID
  deriving DecidableEq, Repr

/-- `ActionIssue::new` and `new_at`, atelier-core/src/action/mod.rs:226-246: `assert!(!message.is_empty())`. -/
def Issue.new (level : IssueLevel) (reporter message : Str) (locus : Option ShapeID) : Except Err Issue :=
  if message.isEmpty then .error .panic else .ok ⟨reporter, level, message, locus⟩

/-- `Display for ActionIssue`, atelier-core/src/action/mod.rs:206-220. -/
def Issue.display (i : Issue) : Str :=
  i.reporter ++ %s" " ++ i.level.display ++ (match i.locus with | some id => %s" " ++ id.display | none => []) ++
    %s": " ++ i.message

/-! ### Runners -/

/-- A `Box<dyn Validator>` or `Box<dyn Linter>`: its state, what `validate`/`check` does to it, and the vector that
`issues_mut` gives access to (the law is that of a `&mut Vec`: what is stored is what is read). -/
structure Action where
  State : Type
  state : State
  act : Model → State → State × Except Err Unit
  issues : State → List Issue
  setIssues : State → List Issue → State
  stored : ∀ s l, issues (setIssues s l) = l

/-- The loop of `run_validation_actions`, atelier-core/src/action/validate/mod.rs:38-59, and of `run_linter_actions`,
atelier-core/src/action/lint/mod.rs:91-111. `issues.append(new_issues)` empties `new_issues` before the test of
`fail_fast` looks at it. Returned: the actions afterwards, and the result. -/
def runActionsFrom (acc : List Issue) (m : Model) (failFast : Bool) : List Action → List Action × Except Err (List Issue)
  | [] => ([], .ok acc)
  | a :: rest =>
    match a.act m a.state with
    | (s, .error e) => ({ a with state := s } :: rest, .error e)
    | (s, .ok ()) =>
      let s' := a.setIssues s []
      let acc' := acc ++ a.issues s
      if failFast && (a.issues s').any (fun i => decide (i.level.rank > IssueLevel.warning.rank)) then
        ({ a with state := s' } :: rest, .ok acc')
      else
        let r := runActionsFrom acc' m failFast rest
        ({ a with state := s' } :: r.1, r.2)

/-- `run_validation_actions` / `run_linter_actions`. -/
def runActions (m : Model) (failFast : Bool) (as : List Action) : List Action × Except Err (List Issue) :=
  runActionsFrom [] m failFast as

/-! ### `CorrectTypeReferences` -/

namespace TypeRefs

/-- The label given at atelier-core/src/action/validate/mod.rs:67. -/
def label : Str := %s"CorrectTypeReferences"

/-- `ActionIssue::error_at(self.label(), ..)`, atelier-core/src/action/mod.rs:277-279; the messages are never empty. -/
def err (shape : ShapeID) (msg : Str) : Issue := ⟨label, .error, msg, some shape⟩

/-- `ActionIssue::warning_at(self.label(), ..)`, atelier-core/src/action/mod.rs:266-268. -/
def warn (shape : ShapeID) (msg : Str) : Issue := ⟨label, .warning, msg, some shape⟩

/-- `CorrectTypeReferences::check_type_only`, atelier-core/src/action/validate/mod.rs:213-242: the issues pushed. -/
def checkTypeOnly (m : Model) (shape : ShapeID) (member : Str) (target : ShapeID) : List Issue :=
  match m.shape target with
  | some t =>
    if t.body.isService || t.body.isOperation || t.body.isResource then
      [err shape (shape.display ++ %s" member " ++ member ++ %s" must not refer to a service, operation, resource or member.")]
    else []
  | none =>
    if target.ns != %s"smithy.api" then
      [warn shape (shape.display ++ %s" member " ++ member ++ %s"'s type (" ++ target.display ++
        %s") cannot be resolved to a shape in this model.")]
    else []

/-- The last branch of `check_operation_only` and `check_resource_only`, atelier-core/src/action/validate/mod.rs:260-269,
288-297. -/
def checkResolved (shape target : ShapeID) (member : Str) : List Issue :=
  if target.ns != %s"smithy.api" then
    [warn shape (member ++ %s"'s type (" ++ target.display ++ %s") cannot be resolved to a shape in this model.")]
  else []

/-- `CorrectTypeReferences::check_operation_only`, atelier-core/src/action/validate/mod.rs:244-270. -/
def checkOperationOnly (m : Model) (shape : ShapeID) (member : Str) (target : ShapeID) : List Issue :=
  match m.shape target with
  | some t => if !t.body.isOperation then [err shape (member ++ %s" must be an operation.")] else []
  | none => checkResolved shape target member

/-- `CorrectTypeReferences::check_resource_only`, atelier-core/src/action/validate/mod.rs:272-298. -/
def checkResourceOnly (m : Model) (shape : ShapeID) (member : Str) (target : ShapeID) : List Issue :=
  match m.shape target with
  | some t => if !t.body.isResource then [err shape (member ++ %s" must be a resource.")] else []
  | none => checkResolved shape target member

/-- The body of the loop of `validate`, atelier-core/src/action/validate/mod.rs:70-209. -/
def checkShape (m : Model) (s : TopLevelShape) : List Issue :=
  match s.body with
  | .simple _ =>
    if s.traits.isEmpty then
      [⟨label, .info, %s"The simple shape (" ++ s.id.display ++
        %s") is simply a synonym, did you mean to add any constraint traits?", some s.id⟩]
    else []
  | .list mem => checkTypeOnly m s.id mem.id mem.target
  | .set mem => checkTypeOnly m s.id mem.id mem.target
  | .map k v => checkTypeOnly m s.id k.id k.target ++ checkTypeOnly m s.id v.id v.target
  | .struct ms => (AMap.values ms).flatMap fun mem => checkTypeOnly m s.id mem.id mem.target
  | .union ms => (AMap.values ms).flatMap fun mem => checkTypeOnly m s.id mem.id mem.target
  | .service v =>
    v.operations.flatMap (checkOperationOnly m s.id %s"Service operation") ++
      v.resources.flatMap (checkResourceOnly m s.id %s"Service resource")
  | .operation o =>
    o.input.toList.flatMap (checkTypeOnly m s.id %s"input") ++ o.output.toList.flatMap (checkTypeOnly m s.id %s"output") ++
      o.errors.flatMap (checkTypeOnly m s.id %s"errors")
  | .resource r =>
    (r.identifiers.flatMap fun e => checkTypeOnly m s.id e.1 e.2) ++
      r.create.toList.flatMap (checkOperationOnly m s.id %s"Resource operation 'create'") ++
      r.put.toList.flatMap (checkOperationOnly m s.id %s"Resource operation 'put'") ++
      r.read.toList.flatMap (checkOperationOnly m s.id %s"Resource operation 'read'") ++
      r.update.toList.flatMap (checkOperationOnly m s.id %s"Resource operation 'update'") ++
      r.delete.toList.flatMap (checkOperationOnly m s.id %s"Resource operation 'delete'") ++
      r.list.toList.flatMap (checkOperationOnly m s.id %s"Resource operation 'list'") ++
      r.operations.flatMap (checkOperationOnly m s.id %s"Resource operation") ++
      r.collectionOperations.flatMap (checkOperationOnly m s.id %s"Resource collection operation") ++
      r.resources.flatMap (checkResourceOnly m s.id %s"Resource resource")
  | .unresolved => []

/-- `CorrectTypeReferences::validate`, atelier-core/src/action/validate/mod.rs:70-209: the issues it pushes. -/
def validate (m : Model) : List Issue := m.shapesList.flatMap (checkShape m)

end TypeRefs

/-! ### `NoUnresolvedReferences` -/

/-- `NoUnresolvedReferences::validate`, atelier-core/src/action/validate/mod.rs:308-322: the issues it pushes. -/
def unresolvedValidate (m : Model) : List Issue :=
  (m.shapesList.filter fun s => s.body.isUnresolved).map fun s =>
    ⟨%s"NoUnresolvedReferences", .error, %s"The model has an unresolved reference to shape '" ++ s.id.display ++ %s"'", none⟩

/-! ### Linters -/

/-- The case conversions of the crate `heck` (not part of the repository): `to_camel_case`, `to_mixed_case`,
`to_snake_case`. -/
structure Heck where
  camel : Str → Str
  mixed : Str → Str
  snake : Str → Str

namespace Naming

/-- The label given at atelier-core/src/action/lint/mod.rs:119. -/
def label : Str := %s"NamingConventions"

/-- `NamingConventions::check_shape_name`, atelier-core/src/action/lint/mod.rs:149-166. -/
def checkShapeName (h : Heck) (reference : Bool) (id : ShapeID) : List Issue :=
  if h.camel id.name != id.name then
    [⟨label, .info, (if reference then %s"References to" else %s"Defined") ++
      %s" shape names should conform to UpperCamelCase, i.e. " ++ h.camel id.name, some id⟩]
  else []

/-- `NamingConventions::check_trait_name`, atelier-core/src/action/lint/mod.rs:167-179. -/
def checkTraitName (h : Heck) (id : ShapeID) : List Issue :=
  if h.mixed id.name != id.name then
    [⟨label, .info, %s"Trait names should conform to lowerCamelCase, i.e. " ++ h.mixed id.name, some id⟩]
  else []

/-- `NamingConventions::check_member_name`, atelier-core/src/action/lint/mod.rs:180-192. -/
def checkMemberName (h : Heck) (parent : ShapeID) (name : Str) : List Issue :=
  if h.mixed name != name then
    [⟨label, .info, %s"Member names should conform to lowerCamelCase, i.e. " ++ h.mixed name, some parent⟩]
  else []

/-- `NamingConventions::check_applied_trait_names`, atelier-core/src/action/lint/mod.rs:193-197. -/
def checkApplied (h : Heck) (ts : Traits) : List Issue := (AMap.keys ts).flatMap (checkTraitName h)

/-- The loop over the members, atelier-core/src/action/lint/mod.rs:135-139. -/
def checkMember (h : Heck) (parent : ShapeID) (m : MemberShape) : List Issue :=
  checkMemberName h parent m.id ++ checkShapeName h true m.target ++ checkApplied h m.traits

/-- The body of the loop of `check`, atelier-core/src/action/lint/mod.rs:122-145. -/
def checkShape (h : Heck) (s : TopLevelShape) : List Issue :=
  (if hasTrait s.traits ⟨%s"smithy.api", %s"trait", none⟩ then checkTraitName h s.id else checkShapeName h false s.id) ++
    checkApplied h s.traits ++
    (match s.body with
     | .struct ms => (AMap.values ms).flatMap (checkMember h s.id)
     | .union ms => (AMap.values ms).flatMap (checkMember h s.id)
     | _ => [])

/-- `NamingConventions::check`, atelier-core/src/action/lint/mod.rs:122-145: the issues it pushes. -/
def check (h : Heck) (m : Model) : List Issue := m.shapesList.flatMap (checkShape h)

end Naming

namespace Terms

/-- The label given at atelier-core/src/action/lint/mod.rs:204. -/
def label : Str := %s"UnwelcomeTerms"

/-- `UNWELCOME`, atelier-core/src/action/lint/terms.rs:12-16. -/
def unwelcome : List Str := [%s"blacklist", %s"kill", %s"master", %s"slave", %s"whitelist"]

/-- `split_words`, atelier-core/src/action/lint/terms.rs:103-106. -/
def splitWords (h : Heck) (s : Str) : List Str := splitOn '_' (h.snake s)

/-- `UnwelcomeTerms`, atelier-core/src/action/lint/mod.rs:71-77: the identifiers checked so far (a `HashSet`) and the
issues. The set is modelled by exact text; see C05 for what hashing by text and comparing without case does to it. -/
structure State where
  checked : List Str
  issues : List Issue

/-- `UnwelcomeTerms::check_identifier`, atelier-core/src/action/lint/mod.rs:245-267 (`in_shape` is always `Some`). -/
def checkIdentifier (h : Heck) (inShape : ShapeID) (st : State) (id : Str) : State :=
  if st.checked.contains id then st
  else ⟨id :: st.checked, st.issues ++ (((splitWords h id).filter unwelcome.contains).map fun w =>
    ⟨label, .warning, %s"The term '" ++ w ++ %s"' is considered either insensitive, divisive, or otherwise unwelcome", some inShape⟩)⟩

/-- The identifiers that `check_shape_id` checks, in order, atelier-core/src/action/lint/mod.rs:234-242. -/
def identifiers (id : ShapeID) : List Str := splitOn '.' id.ns ++ [id.name] ++ id.member.toList

/-- `UnwelcomeTerms::check_shape_id`, atelier-core/src/action/lint/mod.rs:234-242. -/
def checkShapeId (h : Heck) (st : State) (id : ShapeID) : State := (identifiers id).foldl (checkIdentifier h id) st

/-- The loop over the members, atelier-core/src/action/lint/mod.rs:219-225. -/
def checkMember (h : Heck) (parent : ShapeID) (st : State) (m : MemberShape) : State :=
  (AMap.keys m.traits).foldl (checkShapeId h) (checkShapeId h (checkIdentifier h parent st m.id) m.target)

/-- The body of the loop of `check`, atelier-core/src/action/lint/mod.rs:207-230. -/
def checkShape (h : Heck) (st : State) (s : TopLevelShape) : State :=
  let st := (AMap.keys s.traits).foldl (checkShapeId h) (checkShapeId h st s.id)
  match s.body with
  | .struct ms => (AMap.values ms).foldl (checkMember h s.id) (checkShapeId h st s.id)
  | .union ms => (AMap.values ms).foldl (checkMember h s.id) (checkShapeId h st s.id)
  | _ => st

/-- `UnwelcomeTerms::check`, atelier-core/src/action/lint/mod.rs:207-230. -/
def check (h : Heck) (m : Model) (st : State) : State := m.shapesList.foldl (checkShape h) st

end Terms

/-- The action `CorrectTypeReferences`: its state is its vector of issues. -/
def correctTypeReferences : Action :=
  ⟨List Issue, [], fun m s => (s ++ TypeRefs.validate m, .ok ()), id, fun _ l => l, fun _ _ => rfl⟩

/-- The action `NoUnresolvedReferences`. -/
def noUnresolvedReferences : Action :=
  ⟨List Issue, [], fun m s => (s ++ unresolvedValidate m, .ok ()), id, fun _ l => l, fun _ _ => rfl⟩

/-- The action `NamingConventions`. -/
def namingConventions (h : Heck) : Action :=
  ⟨List Issue, [], fun m s => (s ++ Naming.check h m, .ok ()), id, fun _ l => l, fun _ _ => rfl⟩

/-- The action `UnwelcomeTerms`. -/
def unwelcomeTerms (h : Heck) : Action :=
  ⟨Terms.State, ⟨[], []⟩, fun m s => (Terms.check h m s, .ok ()), Terms.State.issues, fun s l => ⟨s.checked, l⟩, fun _ _ => rfl⟩

end Verif
