/-
Properties C35 to C38, C47 and C48 (validators, linters and their runners).
-/
import Verif.ActionsSpec
import Verif.LinesProps

namespace Verif
open Spec

/-! ### C35 NoUnresolvedReferences -/

/-- C35: exactly one kind of issue is reported: an error without locus naming an unresolved shape of the model. -/
theorem C35_issues_iff (m : Model) (hm : WfModel m) (i : Issue) : i ∈ unresolvedValidate m ↔
    ∃ id s, m.shape id = some s ∧ s.body = .unresolved ∧
      i = ⟨%s"NoUnresolvedReferences", .error, %s"The model has an unresolved reference to shape '" ++ id.display ++ %s"'", none⟩ := by
  simp only [unresolvedValidate, List.mem_map, List.mem_filter]
  constructor
  · rintro ⟨s, ⟨hs, hu⟩, rfl⟩
    refine ⟨s.id, s, (mem_shapesList hm _).mp hs, ?_, rfl⟩
    revert hu; cases s.body <;> simp [ShapeKind.isUnresolved]
  · rintro ⟨id, s, hs, hu, rfl⟩
    obtain rfl := hm.key _ _ hs
    exact ⟨s, ⟨(mem_shapesList hm _).mpr hs, by rw [hu]; rfl⟩, rfl⟩

/-- C35: one issue per unresolved shape, and different shapes give different messages. -/
theorem C35_one_each (m : Model) (hm : WfModel m) (hv : ∀ id s, m.shape id = some s → id.Valid) :
    (unresolvedValidate m).length = m.unresolvedShapeNames.length ∧ (unresolvedValidate m).Nodup := by
  refine ⟨by simp [unresolvedValidate, Model.unresolvedShapeNames, TopLevelShape.isUnresolved], ?_⟩
  have hnd : (m.shapesList.map (·.id)).Nodup := by
    have h : m.shapesList.map (·.id) = AMap.keys m.shapes := by
      simp only [Model.shapesList, AMap.values, AMap.keys, List.map_map]
      apply List.map_congr_left
      intro e he
      exact hm.key _ _ ((AMap.mem_iff_get hm.nodup _ _).mp he)
    rw [h]; exact hm.nodup
  have hsub : ((m.shapesList.filter fun s => s.body.isUnresolved).map (·.id)).Nodup :=
    (hnd.sublist ((List.filter_sublist).map _))
  unfold unresolvedValidate
  rw [List.Nodup, List.pairwise_map]
  rw [List.Nodup, List.pairwise_map] at hsub
  refine hsub.imp_of_mem ?_
  intro a b ha hb hab h
  have h1 : a.id.display = b.id.display := by
    have h2 := congrArg Issue.message h
    exact List.append_cancel_left (List.append_cancel_right h2)
  have hva := hv _ _ ((mem_shapesList hm _).mp (List.mem_filter.mp ha).1)
  have hvb := hv _ _ ((mem_shapesList hm _).mp (List.mem_filter.mp hb).1)
  have e := ShapeID.fromStr_display hva
  rw [h1, ShapeID.fromStr_display hvb] at e
  injection e with e
  exact hab e.symm

/-- C35: nothing is reported exactly when the model is complete. -/
theorem C35_silent_iff (m : Model) (hm : WfModel m) : (unresolvedValidate m = [] ↔ m.isComplete = true) ∧
    (unresolvedValidate m = [] ↔ ∀ id s, m.shape id = some s → s.body ≠ .unresolved) := by
  constructor
  · simp [unresolvedValidate, Model.isComplete, TopLevelShape.isUnresolved]
  · constructor
    · intro h id s hs hu
      have := (C35_issues_iff m hm _).mpr ⟨id, s, hs, hu, rfl⟩
      rw [h] at this; cases this
    · intro h
      rw [List.eq_nil_iff_forall_not_mem]
      intro i hi
      obtain ⟨id, s, hs, hu, -⟩ := (C35_issues_iff m hm i).mp hi
      exact h id s hs hu

example : unresolvedValidate exModel ≠ [] ∧ exModel.isComplete = false := by decide

/-! ### C36 CorrectTypeReferences -/

open TypeRefs

/-- The references of a shape with their places. -/
def refsOf (s : TopLevelShape) : List (Str × Role × ShapeID) :=
  match s.body with
  | .simple _ => []
  | .list m => [(s.id.display ++ %s" member " ++ m.id, .data, m.target)]
  | .set m => [(s.id.display ++ %s" member " ++ m.id, .data, m.target)]
  | .map k v => [(s.id.display ++ %s" member " ++ k.id, .data, k.target), (s.id.display ++ %s" member " ++ v.id, .data, v.target)]
  | .struct ms => ms.map fun e => (s.id.display ++ %s" member " ++ e.2.id, .data, e.2.target)
  | .union ms => ms.map fun e => (s.id.display ++ %s" member " ++ e.2.id, .data, e.2.target)
  | .service v => v.operations.map (%s"Service operation", .operation, ·) ++ v.resources.map (%s"Service resource", .resource, ·)
  | .operation o => o.input.toList.map (s.id.display ++ %s" member input", .data, ·) ++
      o.output.toList.map (s.id.display ++ %s" member output", .data, ·) ++ o.errors.map (s.id.display ++ %s" member errors", .data, ·)
  | .resource r => r.identifiers.map (fun e => (s.id.display ++ %s" member " ++ e.1, .data, e.2)) ++
      r.create.toList.map (%s"Resource operation 'create'", .operation, ·) ++
      r.put.toList.map (%s"Resource operation 'put'", .operation, ·) ++
      r.read.toList.map (%s"Resource operation 'read'", .operation, ·) ++
      r.update.toList.map (%s"Resource operation 'update'", .operation, ·) ++
      r.delete.toList.map (%s"Resource operation 'delete'", .operation, ·) ++
      r.list.toList.map (%s"Resource operation 'list'", .operation, ·) ++
      r.operations.map (%s"Resource operation", .operation, ·) ++
      r.collectionOperations.map (%s"Resource collection operation", .operation, ·) ++
      r.resources.map (%s"Resource resource", .resource, ·)
  | .unresolved => []

def allowedB : Role → ShapeKind → Bool
  | .data, k => !(k.isService || k.isOperation || k.isResource)
  | .operation, k => k.isOperation
  | .resource, k => k.isResource

theorem allowedB_iff (r : Role) (k : ShapeKind) : allowedB r k = true ↔ Allowed r k := by
  cases r <;> cases k <;> simp [allowedB, Allowed, ShapeKind.isService, ShapeKind.isOperation, ShapeKind.isResource]

/-- The issue about one reference. -/
def verdict (m : Model) (shape : ShapeID) (e : Str × Role × ShapeID) : List Issue :=
  match m.shape e.2.2 with
  | some t => if allowedB e.2.1 t.body then [] else [err shape (e.1 ++ e.2.1.complaint)]
  | none =>
    if e.2.2.ns = %s"smithy.api" then []
    else [warn shape (e.1 ++ %s"'s type (" ++ e.2.2.display ++ %s") cannot be resolved to a shape in this model.")]

theorem checkTypeOnly_eq (m : Model) (s : ShapeID) (n : Str) (t : ShapeID) :
    checkTypeOnly m s n t = verdict m s (s.display ++ %s" member " ++ n, .data, t) := by
  rw [checkTypeOnly, verdict]
  cases m.shape t with
  | some x => by_cases h : (x.body.isService || x.body.isOperation || x.body.isResource) = true <;> simp [h, allowedB, Role.complaint]
  | none => by_cases h : t.ns = %s"smithy.api" <;> simp [h]

theorem checkOperationOnly_eq (m : Model) (s : ShapeID) (n : Str) (t : ShapeID) :
    checkOperationOnly m s n t = verdict m s (n, .operation, t) := by
  rw [checkOperationOnly, verdict]
  cases m.shape t with
  | some x => by_cases h : x.body.isOperation = true <;> simp [h, allowedB, Role.complaint]
  | none => by_cases h : t.ns = %s"smithy.api" <;> simp [h, checkResolved]

theorem checkResourceOnly_eq (m : Model) (s : ShapeID) (n : Str) (t : ShapeID) :
    checkResourceOnly m s n t = verdict m s (n, .resource, t) := by
  rw [checkResourceOnly, verdict]
  cases m.shape t with
  | some x => by_cases h : x.body.isResource = true <;> simp [h, allowedB, Role.complaint]
  | none => by_cases h : t.ns = %s"smithy.api" <;> simp [h, checkResolved]

/-- The note about a simple shape without traits. -/
def synonym (s : TopLevelShape) : List Issue :=
  match s.body with
  | .simple _ => if s.traits.isEmpty then
      [⟨label, .info, %s"The simple shape (" ++ s.id.display ++
        %s") is simply a synonym, did you mean to add any constraint traits?", some s.id⟩] else []
  | _ => []

theorem checkShape_eq (m : Model) (s : TopLevelShape) : TypeRefs.checkShape m s = synonym s ++ (refsOf s).flatMap (verdict m s.id) := by
  obtain ⟨id, ts, body⟩ := s
  have h1 : ∀ n, checkTypeOnly m id n = fun t => verdict m id (id.display ++ %s" member " ++ n, .data, t) :=
    fun n => funext (checkTypeOnly_eq m id n)
  have h2 : ∀ n, checkOperationOnly m id n = fun t => verdict m id (n, .operation, t) :=
    fun n => funext (checkOperationOnly_eq m id n)
  have h3 : ∀ n, checkResourceOnly m id n = fun t => verdict m id (n, .resource, t) :=
    fun n => funext (checkResourceOnly_eq m id n)
  cases body <;> simp [TypeRefs.checkShape, synonym, refsOf, h1, h2, h3, List.flatMap_map, AMap.values, List.flatMap_append]

theorem mem_refsOf {s : TopLevelShape} (hw : WfShape s) {place : Str} {role : Role} {t : ShapeID} :
    (place, role, t) ∈ refsOf s ↔ Refers s place role t := by
  obtain ⟨id, ts, body⟩ := s
  have hk := hw.2
  constructor
  · intro h
    cases body with
    | simple => simp [refsOf] at h
    | unresolved => simp [refsOf] at h
    | list m => simp [refsOf] at h; obtain ⟨rfl, rfl, rfl⟩ := h; simpa using Refers.member (s := ⟨id, ts, .list m⟩) .list
    | set m => simp [refsOf] at h; obtain ⟨rfl, rfl, rfl⟩ := h; simpa using Refers.member (s := ⟨id, ts, .set m⟩) .set
    | map k v =>
      simp [refsOf] at h
      rcases h with ⟨rfl, rfl, rfl⟩ | ⟨rfl, rfl, rfl⟩
      · simpa using Refers.member (s := ⟨id, ts, .map k v⟩) .key
      · simpa using Refers.member (s := ⟨id, ts, .map k v⟩) .value
    | struct ms =>
      simp only [refsOf, List.mem_map] at h
      obtain ⟨⟨n, m⟩, hm, h⟩ := h
      cases h
      exact .member (.struct ((AMap.mem_iff_get hk.nodup _ _).mp hm))
    | union ms =>
      simp only [refsOf, List.mem_map] at h
      obtain ⟨⟨n, m⟩, hm, h⟩ := h
      cases h
      exact .member (.union ((AMap.mem_iff_get hk.nodup _ _).mp hm))
    | service v =>
      simp only [refsOf, List.mem_append, List.mem_map] at h
      rcases h with ⟨x, hx, h⟩ | ⟨x, hx, h⟩ <;> cases h
      · exact .serviceOperation rfl hx
      · exact .serviceResource rfl hx
    | operation o =>
      simp only [refsOf, List.mem_append, List.mem_map, Option.mem_toList] at h
      rcases h with (⟨x, hx, h⟩ | ⟨x, hx, h⟩) | ⟨x, hx, h⟩ <;> cases h
      · exact .input rfl hx
      · exact .output rfl hx
      · exact .error rfl hx
    | resource r =>
      simp only [refsOf, List.mem_append, List.mem_map, Option.mem_toList] at h
      rcases h with ((((((((⟨x, hx, h⟩ | ⟨x, hx, h⟩) | ⟨x, hx, h⟩) | ⟨x, hx, h⟩) | ⟨x, hx, h⟩) | ⟨x, hx, h⟩) | ⟨x, hx, h⟩) |
        ⟨x, hx, h⟩) | ⟨x, hx, h⟩) | ⟨x, hx, h⟩ <;> cases h
      · exact .identifier rfl ((AMap.mem_iff_get hk _ _).mp hx)
      · exact .create rfl hx
      · exact .put rfl hx
      · exact .read rfl hx
      · exact .update rfl hx
      · exact .delete rfl hx
      · exact .list rfl hx
      · exact .operation rfl hx
      · exact .collection rfl hx
      · exact .resource rfl hx
  · intro h
    cases h with
    | member hm => cases hm with
      | list => simp [refsOf]
      | set => simp [refsOf]
      | key => simp [refsOf]
      | value => simp [refsOf]
      | struct hg => simp only [refsOf, List.mem_map]; exact ⟨_, AMap.mem_of_get hg, rfl⟩
      | union hg => simp only [refsOf, List.mem_map]; exact ⟨_, AMap.mem_of_get hg, rfl⟩
    | serviceOperation e hx => cases e; simp [refsOf, hx]
    | serviceResource e hx => cases e; simp [refsOf, hx]
    | input e hx => cases e; simp [refsOf, hx]
    | output e hx => cases e; simp [refsOf, hx]
    | error e hx => cases e; simp [refsOf, hx]
    | identifier e hx =>
      cases e
      simp only [refsOf, List.mem_append, List.mem_map]
      have : _ ∈ _ := AMap.mem_of_get hx
      exact .inl (.inl (.inl (.inl (.inl (.inl (.inl (.inl (.inl ⟨_, this, rfl⟩))))))))
    | create e hx => cases e; simp [refsOf, hx]
    | put e hx => cases e; simp [refsOf, hx]
    | read e hx => cases e; simp [refsOf, hx]
    | update e hx => cases e; simp [refsOf, hx]
    | delete e hx => cases e; simp [refsOf, hx]
    | list e hx => cases e; simp [refsOf, hx]
    | operation e hx => cases e; simp [refsOf, hx]
    | collection e hx => cases e; simp [refsOf, hx]
    | resource e hx => cases e; simp [refsOf, hx]

theorem mem_verdict {m : Model} {id : ShapeID} {place : Str} {role : Role} {t : ShapeID} {i : Issue} :
    i ∈ verdict m id (place, role, t) ↔
      (WrongKind m role t ∧ i = err id (place ++ role.complaint)) ∨
      (Dangling m t ∧ i = warn id (place ++ %s"'s type (" ++ t.display ++ %s") cannot be resolved to a shape in this model.")) := by
  unfold verdict WrongKind Dangling
  cases h : m.shape t with
  | some x =>
    by_cases ha : allowedB role x.body = true
    · have := (allowedB_iff _ _).mp ha
      simp [ha, this]
    · have : ¬ Allowed role x.body := fun h => ha ((allowedB_iff _ _).mpr h)
      simp [ha, this]
  | none => by_cases hn : t.ns = %s"smithy.api" <;> simp [hn]

/-- C36: the issues are exactly the ones due for the shapes of the model. -/
theorem C36_issues_iff (m : Model) (hm : WfModel m) (i : Issue) :
    i ∈ TypeRefs.validate m ↔ ∃ id s, m.shape id = some s ∧ IssueFor m s i := by
  simp only [TypeRefs.validate, List.mem_flatMap, checkShape_eq, List.mem_append]
  constructor
  · rintro ⟨s, hs, h⟩
    have hg := (mem_shapesList hm _).mp hs
    refine ⟨s.id, s, hg, ?_⟩
    rcases h with h | ⟨⟨place, role, t⟩, hr, hi⟩
    · unfold synonym at h
      split at h
      · next hb =>
        split at h
        · next ht => simp at h; subst h; exact .synonym hb (by simpa using ht)
        · cases h
      · cases h
    · have hr := (mem_refsOf (hm.shapes _ _ hg)).mp hr
      rcases mem_verdict.mp hi with ⟨hw, rfl⟩ | ⟨hd, rfl⟩
      · exact .wrong hr hw
      · exact .dangling hr hd
  · rintro ⟨id, s, hg, h⟩
    obtain rfl := hm.key _ _ hg
    refine ⟨s, (mem_shapesList hm _).mpr hg, ?_⟩
    have hws := hm.shapes _ _ hg
    cases h with
    | synonym hb ht => left; simp [synonym, hb, ht, label]
    | wrong hr hw => exact .inr ⟨_, (mem_refsOf hws).mpr hr, mem_verdict.mpr (.inl ⟨hw, rfl⟩)⟩
    | dangling hr hd => exact .inr ⟨_, (mem_refsOf hws).mpr hr, mem_verdict.mpr (.inr ⟨hd, rfl⟩)⟩

/-- C36: an error is reported at a shape exactly when the shape refers to something of a kind not allowed there. -/
theorem C36_error_iff (m : Model) (hm : WfModel m) (id : ShapeID) :
    (∃ i ∈ TypeRefs.validate m, i.level = .error ∧ i.locus = some id) ↔
      ∃ s place role t, m.shape id = some s ∧ Refers s place role t ∧ WrongKind m role t := by
  constructor
  · rintro ⟨i, hi, hl, hc⟩
    obtain ⟨id', s, hg, h⟩ := (C36_issues_iff m hm i).mp hi
    have := hm.key _ _ hg
    cases h with
    | synonym => cases hl
    | wrong hr hw =>
      simp only [Option.some.injEq] at hc
      rw [← hc, this]
      exact ⟨s, _, _, _, hg, hr, hw⟩
    | dangling => cases hl
  · rintro ⟨s, place, role, t, hg, hr, hw⟩
    exact ⟨_, (C36_issues_iff m hm _).mpr ⟨id, s, hg, .wrong hr hw⟩, rfl, by simp [hm.key _ _ hg]⟩

/-- C36: a warning is reported at a shape exactly when it refers to something neither in the model nor in the prelude. -/
theorem C36_warning_iff (m : Model) (hm : WfModel m) (id : ShapeID) :
    (∃ i ∈ TypeRefs.validate m, i.level = .warning ∧ i.locus = some id) ↔
      ∃ s place role t, m.shape id = some s ∧ Refers s place role t ∧ Dangling m t := by
  constructor
  · rintro ⟨i, hi, hl, hc⟩
    obtain ⟨id', s, hg, h⟩ := (C36_issues_iff m hm i).mp hi
    have := hm.key _ _ hg
    cases h with
    | synonym => cases hl
    | wrong hr hw => cases hl
    | dangling hr hd =>
      simp only [Option.some.injEq] at hc
      rw [← hc, this]
      exact ⟨s, _, _, _, hg, hr, hd⟩
  · rintro ⟨s, place, role, t, hg, hr, hd⟩
    exact ⟨_, (C36_issues_iff m hm _).mpr ⟨id, s, hg, .dangling hr hd⟩, rfl, by simp [hm.key _ _ hg]⟩

theorem refsOf_references (s : TopLevelShape) : (refsOf s).map (·.2) = references s.body := by
  obtain ⟨id, ts, body⟩ := s
  cases body <;> simp [refsOf, references, Function.comp_def]

/-- C36: each occurrence of a reference is reported at most once: the number of errors is the number of occurrences of
references to a wrong kind, and the number of warnings that of dangling references. -/
theorem C36_counts (m : Model) [∀ r t, Decidable (WrongKind m r t)] [∀ t, Decidable (Dangling m t)] :
    (TypeRefs.validate m).countP (fun i => i.level = .error) =
      (m.shapes.map fun e => (references e.2.body).countP fun r => WrongKind m r.1 r.2).sum ∧
    (TypeRefs.validate m).countP (fun i => i.level = .warning) =
      (m.shapes.map fun e => (references e.2.body).countP fun r => Dangling m r.2).sum := by
  have hsyn : ∀ s l, l ≠ IssueLevel.info → (synonym s).countP (fun i => i.level = l) = 0 := by
    intro s l hl
    unfold synonym
    split
    · split
      · simp [Ne.symm hl]
      · rfl
    · rfl
  have hv : ∀ id e, (verdict m id e).countP (fun i => i.level = .error) = if WrongKind m e.2.1 e.2.2 then 1 else 0 := by
    rintro id ⟨place, role, t⟩
    unfold verdict
    cases h : m.shape t with
    | some x =>
      by_cases ha : allowedB role x.body = true
      · have : ¬ WrongKind m role t := by rintro ⟨y, hy, hn⟩; rw [h] at hy; cases hy; exact hn ((allowedB_iff _ _).mp ha)
        simp [ha, this]
      · have : WrongKind m role t := ⟨x, h, fun hh => ha ((allowedB_iff _ _).mpr hh)⟩
        simp [ha, this, err]
    | none =>
      have : ¬ WrongKind m role t := by rintro ⟨y, hy, -⟩; rw [h] at hy; cases hy
      by_cases hn : t.ns = %s"smithy.api" <;> simp [hn, this, warn]
  have hw : ∀ id e, (verdict m id e).countP (fun i => i.level = .warning) = if Dangling m e.2.2 then 1 else 0 := by
    rintro id ⟨place, role, t⟩
    unfold verdict
    cases h : m.shape t with
    | some x =>
      have : ¬ Dangling m t := by rintro ⟨hy, -⟩; rw [h] at hy; cases hy
      by_cases ha : allowedB role x.body = true <;> simp [ha, this, err]
    | none =>
      by_cases hn : t.ns = %s"smithy.api"
      · have : ¬ Dangling m t := fun hd => hd.2 hn
        simp [hn, this]
      · have : Dangling m t := ⟨h, hn⟩
        simp [hn, this, warn]
  have hcount : ∀ {α : Type} (l : List α) (p : α → Bool), (l.map fun a => if p a = true then 1 else 0).sum = l.countP p := by
    intro α l p
    induction l with
    | nil => rfl
    | cons a l ih => rw [List.map_cons, List.sum_cons, ih, List.countP_cons]; omega
  have hshape : ∀ s, (TypeRefs.checkShape m s).countP (fun i => i.level = .error) =
        (references s.body).countP (fun r => WrongKind m r.1 r.2) ∧
      (TypeRefs.checkShape m s).countP (fun i => i.level = .warning) = (references s.body).countP (fun r => Dangling m r.2) := by
    intro s
    rw [checkShape_eq, List.countP_append, List.countP_append, hsyn s _ (by simp), hsyn s _ (by simp),
      List.countP_flatMap, List.countP_flatMap, ← refsOf_references, List.countP_map, List.countP_map, ← hcount, ← hcount]
    simp only [Function.comp_def, hv, hw, decide_eq_true_eq, Nat.zero_add, and_self]
  unfold TypeRefs.validate
  rw [List.countP_flatMap, List.countP_flatMap]
  simp only [Model.shapesList, AMap.values, List.map_map, Function.comp_def]
  constructor
  · congr 1; apply List.map_congr_left; intro e _; exact (hshape e.2).1
  · congr 1; apply List.map_congr_left; intro e _; exact (hshape e.2).2

theorem sameKind_allowed {a b : ShapeKind} (h : SameKind a b) (r : Role) : allowedB r a = allowedB r b := by
  cases h <;> cases r <;> rfl

theorem verdict_same {m m' : Model} (h : SameModel m m') (id : ShapeID) (e : Str × Role × ShapeID) : verdict m id e = verdict m' id e := by
  have := h.shapes e.2.2
  unfold verdict Model.shape
  cases h1 : AMap.get m.shapes e.2.2 <;> cases h2 : AMap.get m'.shapes e.2.2 <;> rw [h1, h2] at this
  all_goals first
    | (cases this; done)
    | (cases this with
       | some hs => simp only [sameKind_allowed hs.body])
    | (simp only; done)
    | rfl

theorem flatMap_one {α β : Type} (g : α → β) (l : List α) : (l.flatMap fun e => [g e]) = l.map g := by
  induction l with
  | nil => rfl
  | cons a l ih => rw [List.flatMap_cons, ih]; rfl

theorem refsOf_same {a b : TopLevelShape} (ha : WfShape a) (hb : WfShape b) (h : SameShape a b) : (refsOf a).Perm (refsOf b) := by
  obtain ⟨id, ts, ka⟩ := a
  obtain ⟨id', ts', kb⟩ := b
  have hid : id = id' := h.id
  subst hid
  have hk := h.body
  have hka := ha.2
  have hkb := hb.2
  simp only at hk hka hkb
  have hmap : ∀ {a b : AMap Str MemberShape}, AMap.Wf a → AMap.Wf b → MapRel SameMemberShape a b → ∀ g : MemberShape → Str × Role × ShapeID,
      (∀ x y, SameMemberShape x y → g x = g y) → (a.map fun e => g e.2).Perm (b.map fun e => g e.2) := by
    intro a b ha hb h g hg
    have := flatMap_perm_of_mapRel ha hb h (fun e => [g e.2]) (fun e => [g e.2])
      (fun k x y _ _ hxy => by rw [hg x y hxy])
    rwa [flatMap_one (fun e : Str × MemberShape => g e.2) a, flatMap_one (fun e : Str × MemberShape => g e.2) b] at this
  cases hk with
  | list hm => simp [refsOf, hm.1, hm.2.1]
  | set hm => simp [refsOf, hm.1, hm.2.1]
  | map hk hv => simp [refsOf, hk.1, hk.2.1, hv.1, hv.2.1]
  | struct hm => exact hmap hka.nodup hkb.nodup hm (fun m => (id.display ++ %s" member " ++ m.id, Role.data, m.target)) fun x y hxy => by rw [hxy.1, hxy.2.1]
  | union hm => exact hmap hka.nodup hkb.nodup hm (fun m => (id.display ++ %s" member " ++ m.id, Role.data, m.target)) fun x y hxy => by rw [hxy.1, hxy.2.1]
  | resource hm =>
    rename_i m m' _ _ _ _ _ _ _ _ _
    simp only [refsOf]
    have : (m.map fun e => (id.display ++ %s" member " ++ e.1, Role.data, e.2)).Perm
        (m'.map fun e => (id.display ++ %s" member " ++ e.1, Role.data, e.2)) := by
      have := flatMap_perm_of_mapRel hka hkb hm (fun e => [(id.display ++ %s" member " ++ e.1, Role.data, e.2)])
        (fun e => [(id.display ++ %s" member " ++ e.1, Role.data, e.2)]) (fun k x y _ _ hxy => by rw [hxy])
      rwa [flatMap_one (fun e : Str × ShapeID => (id.display ++ %s" member " ++ e.1, Role.data, e.2)) m,
        flatMap_one (fun e : Str × ShapeID => (id.display ++ %s" member " ++ e.1, Role.data, e.2)) m'] at this
    exact (((((((((this.append_right _).append_right _).append_right _).append_right _).append_right _).append_right _).append_right
      _).append_right _).append_right _)
  | _ => exact List.Perm.refl _

theorem synonym_same {a b : TopLevelShape} (ha : WfShape a) (hb : WfShape b) (h : SameShape a b) : synonym a = synonym b := by
  obtain ⟨id, ts, ka⟩ := a
  obtain ⟨id', ts', kb⟩ := b
  have hid : id = id' := h.id
  subst hid
  have ht : ts.isEmpty = ts'.isEmpty := by
    have hr : SameTraits ts ts' := h.traits
    cases ts with
    | nil =>
      cases ts' with
      | nil => rfl
      | cons e es => have := hr e.1; rw [AMap.get_cons, if_pos rfl] at this; cases this
    | cons e es =>
      cases ts' with
      | nil => have := hr e.1; rw [AMap.get_cons, if_pos rfl] at this; cases this
      | cons => rfl
  have hk := h.body
  simp only at hk
  cases hk <;> simp [synonym, ht]

/-- C36: the issues do not depend on the order in which the maps of the model are enumerated (up to their order). -/
theorem C36_order_independent (m m' : Model) (hm : WfModel m) (hm' : WfModel m') (h : SameModel m m') :
    (TypeRefs.validate m).Perm (TypeRefs.validate m') := by
  have := flatMap_perm_of_mapRel hm.nodup hm'.nodup h.shapes (fun e => TypeRefs.checkShape m e.2) (fun e => TypeRefs.checkShape m' e.2)
    (fun k x y hx hy hxy => by
      rw [checkShape_eq, checkShape_eq, synonym_same (hm.shapes _ _ hx) (hm'.shapes _ _ hy) hxy]
      refine List.Perm.append_left _ ?_
      have hv : verdict m x.id = verdict m' y.id := by rw [hxy.id]; exact funext (verdict_same h _)
      rw [hv]
      exact (refsOf_same (hm.shapes _ _ hx) (hm'.shapes _ _ hy) hxy).flatMap_right _)
  simpa [TypeRefs.validate, Model.shapesList, AMap.values, List.flatMap_map] using this

/-- A structure whose member targets a service, and a service whose operation is not in the model. -/
example : ∃ m : Model, WfModel m ∧ (TypeRefs.validate m).map (fun i => (i.level, i.locus)) =
    [(.error, some (sid %s"S")), (.warning, some (sid %s"V"))] := by
  let v : TopLevelShape := ⟨sid %s"V", [], .service ⟨%s"1", [sid %s"O"], [], []⟩⟩
  refine ⟨⟨.v10, [], [(sid %s"S", exStruct %s"S" [(%s"a", sid %s"V")]), (sid %s"V", v)]⟩, ?_, by decide⟩
  have hS : ∀ id s, Model.shape ⟨.v10, [], [(sid %s"S", exStruct %s"S" [(%s"a", sid %s"V")]), (sid %s"V", v)]⟩ id = some s →
      (id = sid %s"S" ∧ s = exStruct %s"S" [(%s"a", sid %s"V")]) ∨ (id = sid %s"V" ∧ s = v) := by
    intro id s h
    have := AMap.mem_of_get h
    simpa using this
  refine ⟨AMap.wf_nil, by simp, by unfold AMap.Wf; decide, ?_, ?_, ?_⟩
  · intro id s h; rcases hS id s h with ⟨rfl, rfl⟩ | ⟨rfl, rfl⟩ <;> rfl
  · intro id s h hm; rcases hS id s h with ⟨rfl, rfl⟩ | ⟨rfl, rfl⟩ <;> cases hm
  · intro id s h
    rcases hS id s h with ⟨rfl, rfl⟩ | ⟨rfl, rfl⟩
    · refine ⟨⟨AMap.wf_nil, by simp [exStruct]⟩, by unfold AMap.Wf; decide, fun k m h => ?_, fun k m h => ?_⟩
      · obtain ⟨rfl, rfl⟩ := get_one h; rfl
      · obtain ⟨rfl, rfl⟩ := get_one h; exact ⟨AMap.wf_nil, by simp [MemberShape.new]⟩
    · exact ⟨⟨AMap.wf_nil, by simp [v]⟩, AMap.wf_nil⟩

end Verif
