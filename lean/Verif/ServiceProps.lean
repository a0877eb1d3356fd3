/-
Property theorems C23: collection members of services, operations and resources
(atelier-core/src/macros.rs:147-197, atelier-core/src/model/shapes/service.rs).
-/
import Verif.ModelLemmas

namespace Verif
open Spec

/-! ### Specification: histories of list operations -/

/-- The operations `array_member!` generates for a field. -/
inductive ArrOp where
  | set (xs : List ShapeID)
  | add (x : ShapeID)
  | append (xs : List ShapeID)
  | remove (x : ShapeID)

/-- The generated methods, run on the field. -/
def ArrOp.run (xs : List ShapeID) : ArrOp → List ShapeID
  | .set ys => arraySet xs ys
  | .add y => arrayAdd xs y
  | .append ys => arrayAppend xs ys
  | .remove y => arrayRemove xs y

def runAll (xs : List ShapeID) (ops : List ArrOp) : List ShapeID := ops.foldl ArrOp.run xs

/-- The operation puts `y` in the list. -/
def ArrOp.Puts (y : ShapeID) : ArrOp → Prop
  | .set ys => y ∈ ys
  | .add x => y = x
  | .append ys => y ∈ ys
  | .remove _ => False

/-- The operation takes out whatever copies of `y` were in the list. -/
def ArrOp.Takes (y : ShapeID) : ArrOp → Prop
  | .set _ => True
  | .remove x => SameId y x
  | _ => False

theorem arrayAppend_eq (xs ys : List ShapeID) : arrayAppend xs ys = xs ++ ys := by
  unfold arrayAppend
  induction ys generalizing xs with
  | nil => simp
  | cons y ys ih => simp [ih, arrayAdd]

/-- C23: the effect of each operation on the list. `remove_x` keeps exactly the elements not `==` to the given id, in
their order. -/
theorem C23_array_operations (xs ys : List ShapeID) (x : ShapeID) :
    arrayAdd xs x = xs ++ [x] ∧ arrayAppend xs ys = xs ++ ys ∧ arraySet xs ys = ys ∧
    (arrayRemove xs x).Sublist xs ∧ (∀ y, y ∈ arrayRemove xs x ↔ y ∈ xs ∧ ¬ SameId y x) ∧
    (∀ y, ¬ SameId y x → (arrayRemove xs x).count y = xs.count y) := by
  refine ⟨rfl, arrayAppend_eq xs ys, rfl, List.filter_sublist, ?_, ?_⟩
  · intro y; simp [arrayRemove, SameId]
  · intro y hy
    unfold arrayRemove
    rw [List.count_filter]
    simpa [SameId] using hy

theorem mem_run (xs : List ShapeID) (op : ArrOp) (y : ShapeID) :
    y ∈ op.run xs ↔ op.Puts y ∨ (y ∈ xs ∧ ¬ op.Takes y) := by
  cases op with
  | set ys => simp [ArrOp.run, ArrOp.Puts, ArrOp.Takes, arraySet]
  | add x => simp [ArrOp.run, ArrOp.Puts, ArrOp.Takes, arrayAdd, or_comm]
  | append ys => simp [ArrOp.run, ArrOp.Puts, ArrOp.Takes, arrayAppend_eq, or_comm]
  | remove x => simp [ArrOp.run, ArrOp.Puts, ArrOp.Takes, arrayRemove, SameId]

/-- C23 for every history: an id is in the list exactly when some operation put it there (or it was there at the start)
and no later operation took it out. -/
theorem C23_array_history (init : List ShapeID) (ops : List ArrOp) (y : ShapeID) :
    y ∈ runAll init ops ↔
      (y ∈ init ∧ ∀ op ∈ ops, ¬ op.Takes y) ∨
      (∃ before op after, ops = before ++ op :: after ∧ op.Puts y ∧ ∀ o ∈ after, ¬ o.Takes y) := by
  induction ops generalizing init with
  | nil => simp [runAll]
  | cons op ops ih =>
    show y ∈ runAll (op.run init) ops ↔ _
    rw [ih, mem_run]
    constructor
    · rintro (⟨h | ⟨h1, h2⟩, h3⟩ | ⟨b, o, a, rfl, h1, h2⟩)
      · exact .inr ⟨[], op, ops, rfl, h, h3⟩
      · exact .inl ⟨h1, by simpa using ⟨h2, h3⟩⟩
      · exact .inr ⟨op :: b, o, a, rfl, h1, h2⟩
    · rintro (⟨h1, h2⟩ | ⟨b, o, a, he, h1, h2⟩)
      · simp only [List.mem_cons, forall_eq_or_imp] at h2
        exact .inl ⟨.inr ⟨h1, h2.1⟩, h2.2⟩
      · cases b with
        | nil =>
          simp at he
          obtain ⟨rfl, rfl⟩ := he
          exact .inl ⟨.inl h1, h2⟩
        | cons b0 b =>
          simp at he
          obtain ⟨rfl, rfl⟩ := he
          exact .inr ⟨b, o, a, rfl, h1, h2⟩

/-! ### Setters from shapes accept only shapes of the right kind -/

/-- The kinds an operation's input, output and errors may have. -/
def DataKind (k : ShapeKind) : Prop :=
  (∀ o, k ≠ .operation o) ∧ (∀ r, k ≠ .resource r) ∧ (∀ s, k ≠ .service s) ∧ k ≠ .unresolved

theorem isDataShape_iff (k : ShapeKind) : isDataShape k = true ↔ DataKind k := by
  cases k <;> simp [isDataShape, DataKind, ShapeKind.isOperation, ShapeKind.isResource, ShapeKind.isService, ShapeKind.isUnresolved]

/-- C23: services accept operations and resources only; otherwise nothing changes. -/
theorem C23_service_setters (s : Service) (sh : TopLevelShape) :
    (∀ o, sh.body = .operation o → s.addOperationShape sh = { s with operations := s.operations ++ [sh.id] }) ∧
    ((∀ o, sh.body ≠ .operation o) → s.addOperationShape sh = s) ∧
    (∀ r, sh.body = .resource r → s.addResourceShape sh = { s with resources := s.resources ++ [sh.id] }) ∧
    ((∀ r, sh.body ≠ .resource r) → s.addResourceShape sh = s) := by
  unfold Service.addOperationShape Service.addResourceShape
  cases sh.body <;> simp [ShapeKind.isOperation, ShapeKind.isResource, arrayAdd]

/-- C23: operations accept data shapes for input, output and errors; otherwise nothing changes. -/
theorem C23_operation_setters (o : Operation) (sh : TopLevelShape) :
    (DataKind sh.body → o.setInputShape sh = { o with input := some sh.id } ∧
      o.setOutputShape sh = { o with output := some sh.id } ∧
      o.addErrorShape sh = { o with errors := o.errors ++ [sh.id] }) ∧
    (¬ DataKind sh.body → o.setInputShape sh = o ∧ o.setOutputShape sh = o ∧ o.addErrorShape sh = o) := by
  simp only [Operation.setInputShape, Operation.setOutputShape, Operation.addErrorShape, ← isDataShape_iff, arrayAdd]
  cases isDataShape sh.body <;> simp

/-- C23: resources accept operations for the lifecycle and the operation lists, resources for the resource list;
otherwise nothing changes. A lifecycle setter changes that lifecycle operation only. -/
theorem C23_resource_setters (r : Resource) (sh : TopLevelShape) (l : Lifecycle) :
    (∀ o, sh.body = .operation o →
      (∀ l', (r.setLifecycleShape l sh).lifecycle l' = if l' = l then some sh.id else r.lifecycle l') ∧
      (r.setLifecycleShape l sh).operations = r.operations ∧ (r.setLifecycleShape l sh).resources = r.resources ∧
      (r.setLifecycleShape l sh).collectionOperations = r.collectionOperations ∧
      (r.setLifecycleShape l sh).identifiers = r.identifiers ∧
      r.addOperationShape sh = { r with operations := r.operations ++ [sh.id] } ∧
      r.addCollectionOperationShape sh = { r with collectionOperations := r.collectionOperations ++ [sh.id] }) ∧
    ((∀ o, sh.body ≠ .operation o) → r.setLifecycleShape l sh = r ∧ r.addOperationShape sh = r ∧
      r.addCollectionOperationShape sh = r) ∧
    (∀ q, sh.body = .resource q → r.addResourceShape sh = { r with resources := r.resources ++ [sh.id] }) ∧
    ((∀ q, sh.body ≠ .resource q) → r.addResourceShape sh = r) := by
  unfold Resource.setLifecycleShape Resource.addOperationShape Resource.addCollectionOperationShape Resource.addResourceShape
  cases sh.body <;> simp [ShapeKind.isOperation, ShapeKind.isResource, arrayAdd]
  refine ⟨fun l' => ?_, ?_⟩
  · cases l <;> cases l' <;> rfl
  · cases l <;> simp [Resource.setLifecycle]

/-- C23: `has_any_resource_operation` says that some lifecycle operation is set. -/
theorem C23_hasAnyResourceOperation (r : Resource) :
    r.hasAnyResourceOperation = true ↔ ∃ l, (r.lifecycle l).isSome = true := by
  simp only [Resource.hasAnyResourceOperation, Bool.or_eq_true]
  constructor
  · rintro (((((h | h) | h) | h) | h) | h)
    · exact ⟨.create, h⟩
    · exact ⟨.put, h⟩
    · exact ⟨.read, h⟩
    · exact ⟨.update, h⟩
    · exact ⟨.delete, h⟩
    · exact ⟨.list, h⟩
  · rintro ⟨l, h⟩
    cases l <;> simp [Resource.lifecycle] at h <;> simp [h]

/-- C23: a service always has a non-empty version. -/
theorem C23_service_version (v : Str) (s : Service) :
    (Service.new v = .ok s → s.version = v ∧ v ≠ [] ∧ s.operations = [] ∧ s.resources = [] ∧ s.renames = []) ∧
    (Service.new v = .error .panic ↔ v = []) ∧
    (∀ t, s.setVersion v = .ok t ↔ t = { s with version := v } ∧ v ≠ []) ∧ (s.setVersion v = .error .panic ↔ v = []) := by
  unfold Service.new Service.setVersion
  cases v with
  | nil => simp
  | cons c v =>
    simp
    refine ⟨by rintro rfl; simp, fun t => eq_comm⟩

/-- A structure built by any sequence of member additions holds each member under its own name; the last addition under
a name wins. -/
theorem C23_withMembers (l : List MemberShape) (k : Str) :
    structMember (withMembers l) k = AMap.get (l.map fun m => (m.id, m)).reverse k := by
  have : withMembers l = AMap.ofList (l.map fun m => (m.id, m)) := by
    unfold withMembers AMap.ofList
    rw [List.foldl_map]; rfl
  rw [structMember, this, AMap.get_ofList]

example : runAll [] [.append [⟨%s"a", %s"B", none⟩, ⟨%s"a", %s"C", none⟩], .remove ⟨%s"A", %s"b", none⟩] = [⟨%s"a", %s"C", none⟩] := by
  decide

end Verif
