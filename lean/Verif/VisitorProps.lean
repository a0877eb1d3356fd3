/-
Property C39 (model visitors).
-/
import Verif.VisitorSpec
import Verif.ActionsProps

namespace Verif
open Spec

namespace Visitor
variable {σ ε : Type}

/-- Calls in order until the first failure, as a function. -/
def perform (act : Call → Step σ ε) : List Call → Step σ ε := Step.forEach act

theorem performs_perform (act : Call → Step σ ε) (cs : List Call) (s : σ) :
    Performs act cs s (perform act cs s).1 (perform act cs s).2 := by
  induction cs generalizing s with
  | nil => exact .done
  | cons c cs ih =>
    unfold perform Step.forEach
    cases h : act c s with
    | mk s' r =>
      cases r with
      | error e => exact .failed h
      | ok u => exact .next h (ih s')

theorem performs_unique {act : Call → Step σ ε} {cs : List Call} {s s1 s2 : σ} {r1 r2 : Except ε Unit}
    (h1 : Performs act cs s s1 r1) (h2 : Performs act cs s s2 r2) : s1 = s2 ∧ r1 = r2 := by
  induction h1 with
  | done => cases h2; exact ⟨rfl, rfl⟩
  | next h _ ih =>
    cases h2 with
    | next h' hp => rw [h] at h'; injection h' with h'; subst h'; exact ih hp
    | failed h' => rw [h] at h'; cases h'
  | failed h =>
    cases h2 with
    | next h' hp => rw [h] at h'; cases h'
    | failed h' => rw [h] at h'; injection h' with h1 h2; injection h2 with h2; exact ⟨h1, by rw [h2]⟩

theorem perform_append (act : Call → Step σ ε) (a b : List Call) : perform act (a ++ b) = (perform act a).andThen (perform act b) := by
  funext s
  unfold perform
  induction a generalizing s with
  | nil => rfl
  | cons c cs ih =>
    unfold Step.andThen
    simp only [List.cons_append, Step.forEach]
    cases h : act c s with
    | mk s' r =>
      cases r with
      | error e => rfl
      | ok u => simp only [ih]; rfl

theorem perform_one (act : Call → Step σ ε) (c : Call) : perform act [c] = act c := by
  funext s
  simp only [perform, Step.forEach]
  cases h : act c s with
  | mk s' r => cases r <;> rfl

theorem perform_cons (act : Call → Step σ ε) (c : Call) (cs : List Call) : perform act (c :: cs) = (act c).andThen (perform act cs) := by
  rw [← perform_one act c, ← perform_append]; rfl

theorem forEach_map {α : Type} (act : Call → Step σ ε) (g : α → Call) (l : List α) :
    Step.forEach (fun x => act (g x)) l = perform act (l.map g) := by
  induction l with
  | nil => rfl
  | cons x xs ih => rw [List.map_cons, perform_cons, ← ih]; rfl

theorem ifSome_map {α : Type} (act : Call → Step σ ε) (g : α → Call) (o : Option α) :
    Step.ifSome (fun x => act (g x)) o = perform act (o.toList.map g) := by
  cases o with
  | none => rfl
  | some x => rw [Option.toList, List.map_cons, List.map_nil, perform_one]; rfl

theorem forEach_blocks {α : Type} (act : Call → Step σ ε) (f : α → Step σ ε) (g : α → List Call)
    (h : ∀ x, f x = perform act (g x)) (l : List α) : Step.forEach f l = perform act (l.flatMap g) := by
  induction l with
  | nil => rfl
  | cons x xs ih => rw [List.flatMap_cons, perform_append, ← ih, ← h]; rfl

/-- The calls for members, as a list. -/
def ofMember (id : ShapeID) (m : MemberShape) : Call := .member id m.id m.target (some m.traits)
@[inherit_doc ofMember] def ofTarget (id : ShapeID) (n : Str) (t : ShapeID) : Call := .member id n t none
@[inherit_doc ofMember] def memberCalls (s : TopLevelShape) : List Call :=
  match s.body with
  | .simple _ => []
  | .list m => [ofMember s.id m]
  | .set m => [ofMember s.id m]
  | .map k v => [ofMember s.id k] ++ [ofMember s.id v]
  | .struct ms => (AMap.values ms).map (ofMember s.id)
  | .union ms => (AMap.values ms).map (ofMember s.id)
  | .service b => b.operations.map (ofTarget s.id %s"operations") ++ b.resources.map (ofTarget s.id %s"resources")
  | .operation o => o.input.toList.map (ofTarget s.id %s"input") ++ (o.output.toList.map (ofTarget s.id %s"output") ++
      o.errors.map (ofTarget s.id %s"errors"))
  | .resource r => r.create.toList.map (ofTarget s.id %s"create") ++ (r.put.toList.map (ofTarget s.id %s"put") ++
      (r.read.toList.map (ofTarget s.id %s"read") ++ (r.update.toList.map (ofTarget s.id %s"update") ++
      (r.delete.toList.map (ofTarget s.id %s"delete") ++ (r.list.toList.map (ofTarget s.id %s"list") ++
      (r.operations.map (ofTarget s.id %s"operations") ++ (r.collectionOperations.map (ofTarget s.id %s"collectionOperations") ++
      r.resources.map (ofTarget s.id %s"resources"))))))))
  | .unresolved => []

theorem withMembers_some (v : ModelVisitor σ ε) (mv : MemberVisitor σ ε) (hv : ∀ s, v.memberVisitor s = some mv)
    (f : MemberVisitor σ ε → Step σ ε) : withMembers v f = f mv := by
  funext s; simp [withMembers, hv]

theorem withMembers_none (v : ModelVisitor σ ε) (hv : ∀ s, v.memberVisitor s = none)
    (f : MemberVisitor σ ε → Step σ ε) (act : Call → Step σ ε) : withMembers v f = perform act [] := by
  funext s; simp [withMembers, hv, perform, Step.forEach]

theorem walkShape_some (v : ModelVisitor σ ε) (mv : MemberVisitor σ ε) (hv : ∀ s, v.memberVisitor s = some mv) (s : TopLevelShape) :
    walkShape v s = perform (receive v mv) (.shape s.id s.traits s.body :: memberCalls s) := by
  have hm : visitMember mv s.id = fun m => receive v mv (ofMember s.id m) := rfl
  have ht : ∀ n, visitTarget mv s.id n = fun t => receive v mv (ofTarget s.id n t) := fun _ => rfl
  rw [perform_cons]
  obtain ⟨id, ts, body⟩ := s
  cases body <;>
    simp only [walkShape, memberCalls, withMembers_some v mv hv, hm, ht, forEach_map, ifSome_map, perform_append, perform_one] <;>
    first
      | rfl
      | (funext s; simp only [Step.andThen, perform, Step.forEach, receive]; split <;> simp_all)

theorem walkShape_none (v : ModelVisitor σ ε) (mv : MemberVisitor σ ε) (hv : ∀ s, v.memberVisitor s = none) (s : TopLevelShape) :
    walkShape v s = perform (receive v mv) [.shape s.id s.traits s.body] := by
  rw [perform_cons]
  obtain ⟨id, ts, body⟩ := s
  cases body <;> simp only [walkShape, withMembers_none v hv _ (receive v mv)] <;>
    first
      | rfl
      | (funext s; simp only [Step.andThen, perform, Step.forEach, receive]; split <;> simp_all)

theorem memberCalls_spec (s : TopLevelShape) (hs : WfShape s) : MemberCalls s (memberCalls s) := by
  obtain ⟨id, ts, body⟩ := s
  have hk := hs.2
  simp only at hk
  refine ⟨?_, ?_, ?_⟩
  · intro c
    have hval : ∀ {ms : AMap Str MemberShape}, AMap.Wf ms → ∀ m, m ∈ AMap.values ms ↔ ∃ n, AMap.get ms n = some m := by
      intro ms hw m
      simp only [AMap.values, List.mem_map, Prod.exists]
      constructor
      · rintro ⟨n, m', h, rfl⟩; exact ⟨n, AMap.get_of_mem hw h⟩
      · rintro ⟨n, h⟩; exact ⟨n, m, AMap.mem_of_get h, rfl⟩
    cases body with
    | simple s => simp only [memberCalls, List.not_mem_nil, false_iff]; rintro (⟨m, h, -⟩ | ⟨n, t, h, -⟩) <;> cases h
    | unresolved => simp only [memberCalls, List.not_mem_nil, false_iff]; rintro (⟨m, h, -⟩ | ⟨n, t, h, -⟩) <;> cases h
    | list m =>
      simp only [memberCalls, List.mem_singleton]
      constructor
      · rintro rfl; exact .inl ⟨m, .list, rfl⟩
      · rintro (⟨m, h, rfl⟩ | ⟨n, t, h, -⟩) <;> cases h; rfl
    | set m =>
      simp only [memberCalls, List.mem_singleton]
      constructor
      · rintro rfl; exact .inl ⟨m, .set, rfl⟩
      · rintro (⟨m, h, rfl⟩ | ⟨n, t, h, -⟩) <;> cases h; rfl
    | map k v =>
      simp only [memberCalls, List.mem_append, List.mem_singleton]
      constructor
      · rintro (rfl | rfl)
        · exact .inl ⟨k, .key, rfl⟩
        · exact .inl ⟨v, .value, rfl⟩
      · rintro (⟨m, h, rfl⟩ | ⟨n, t, h, -⟩) <;> cases h
        · exact .inl rfl
        · exact .inr rfl
    | struct ms =>
      simp only [memberCalls, List.mem_map, hval hk.nodup]
      constructor
      · rintro ⟨m, ⟨n, h⟩, rfl⟩; exact .inl ⟨m, .struct h, rfl⟩
      · rintro (⟨m, h, rfl⟩ | ⟨n, t, h, -⟩) <;> cases h; rename_i n h; exact ⟨m, ⟨n, h⟩, rfl⟩
    | union ms =>
      simp only [memberCalls, List.mem_map, hval hk.nodup]
      constructor
      · rintro ⟨m, ⟨n, h⟩, rfl⟩; exact .inl ⟨m, .union h, rfl⟩
      · rintro (⟨m, h, rfl⟩ | ⟨n, t, h, -⟩) <;> cases h; rename_i n h; exact ⟨m, ⟨n, h⟩, rfl⟩
    | service b =>
      simp only [memberCalls, List.mem_append, List.mem_map]
      constructor
      · rintro (⟨t, h, rfl⟩ | ⟨t, h, rfl⟩)
        · exact .inr ⟨_, t, .serviceOperation h, rfl⟩
        · exact .inr ⟨_, t, .serviceResource h, rfl⟩
      · rintro (⟨m, h, rfl⟩ | ⟨n, t, h, rfl⟩) <;> cases h <;> rename_i h
        · exact .inl ⟨t, h, rfl⟩
        · exact .inr ⟨t, h, rfl⟩
    | operation o =>
      simp only [memberCalls, List.mem_append, List.mem_map, Option.mem_toList, Option.mem_def]
      constructor
      · rintro (⟨t, h, rfl⟩ | ⟨t, h, rfl⟩ | ⟨t, h, rfl⟩)
        · exact .inr ⟨_, t, .input h, rfl⟩
        · exact .inr ⟨_, t, .output h, rfl⟩
        · exact .inr ⟨_, t, .error h, rfl⟩
      · rintro (⟨m, h, rfl⟩ | ⟨n, t, h, rfl⟩) <;> cases h <;> rename_i h
        · exact .inl ⟨t, h, rfl⟩
        · exact .inr (.inl ⟨t, h, rfl⟩)
        · exact .inr (.inr ⟨t, h, rfl⟩)
    | resource r =>
      simp only [memberCalls, List.mem_append, List.mem_map, Option.mem_toList, Option.mem_def]
      constructor
      · rintro (⟨t, h, rfl⟩ | ⟨t, h, rfl⟩ | ⟨t, h, rfl⟩ | ⟨t, h, rfl⟩ | ⟨t, h, rfl⟩ | ⟨t, h, rfl⟩ | ⟨t, h, rfl⟩ | ⟨t, h, rfl⟩ | ⟨t, h, rfl⟩)
        · exact .inr ⟨_, t, .create h, rfl⟩
        · exact .inr ⟨_, t, .put h, rfl⟩
        · exact .inr ⟨_, t, .read h, rfl⟩
        · exact .inr ⟨_, t, .update h, rfl⟩
        · exact .inr ⟨_, t, .delete h, rfl⟩
        · exact .inr ⟨_, t, .list h, rfl⟩
        · exact .inr ⟨_, t, .resourceOperation h, rfl⟩
        · exact .inr ⟨_, t, .collectionOperation h, rfl⟩
        · exact .inr ⟨_, t, .resourceResource h, rfl⟩
      · rintro (⟨m, h, rfl⟩ | ⟨n, t, h, rfl⟩) <;> cases h <;> rename_i h
        · exact .inl ⟨t, h, rfl⟩
        · exact .inr (.inl ⟨t, h, rfl⟩)
        · exact .inr (.inr (.inl ⟨t, h, rfl⟩))
        · exact .inr (.inr (.inr (.inl ⟨t, h, rfl⟩)))
        · exact .inr (.inr (.inr (.inr (.inl ⟨t, h, rfl⟩))))
        · exact .inr (.inr (.inr (.inr (.inr (.inl ⟨t, h, rfl⟩)))))
        · exact .inr (.inr (.inr (.inr (.inr (.inr (.inl ⟨t, h, rfl⟩))))))
        · exact .inr (.inr (.inr (.inr (.inr (.inr (.inr (.inl ⟨t, h, rfl⟩)))))))
        · exact .inr (.inr (.inr (.inr (.inr (.inr (.inr (.inr ⟨t, h, rfl⟩)))))))
  · cases body <;> simp only [memberCalls, memberCount, List.length_append, List.length_map, List.length_nil, List.length_cons, AMap.values] <;>
      omega
  · intro n
    have hm : ∀ l : List MemberShape, (l.map (ofMember id)).filterMap (Call.propertyNamed n) = [] := by
      intro l; induction l with
      | nil => rfl
      | cons a l ih => simpa [ofMember, Call.propertyNamed] using ih
    have ht : ∀ (n' : Str) (l : List ShapeID), (l.map (ofTarget id n')).filterMap (Call.propertyNamed n) = if n = n' then l else [] := by
      intro n' l
      induction l with
      | nil => simp
      | cons a l ih =>
        rw [List.map_cons, List.filterMap_cons, ih]
        by_cases h : n = n'
        · subst h; simp [ofTarget, Call.propertyNamed]
        · have : ¬ n' = n := fun h' => h h'.symm
          simp [ofTarget, Call.propertyNamed, h, this]
    cases body <;> simp only [memberCalls, propertyValues, List.filterMap_append, hm, ht, List.filterMap_nil]
    · exact hm [_]
    · exact hm [_]
    · rename_i k v; exact hm [k, v]
    · by_cases h1 : n = %s"operations"
      · subst h1; simp
      · by_cases h2 : n = %s"resources"
        · subst h2; simp
        · simp [h1, h2]
    · by_cases h1 : n = %s"input"
      · subst h1; simp
      · by_cases h2 : n = %s"output"
        · subst h2; simp
        · by_cases h3 : n = %s"errors"
          · subst h3; simp
          · simp [h1, h2, h3]
    · by_cases h1 : n = %s"create"
      · subst h1; simp
      by_cases h2 : n = %s"put"
      · subst h2; simp
      by_cases h3 : n = %s"read"
      · subst h3; simp
      by_cases h4 : n = %s"update"
      · subst h4; simp
      by_cases h5 : n = %s"delete"
      · subst h5; simp
      by_cases h6 : n = %s"list"
      · subst h6; simp
      by_cases h7 : n = %s"operations"
      · subst h7; simp
      by_cases h8 : n = %s"collectionOperations"
      · subst h8; simp
      by_cases h9 : n = %s"resources"
      · subst h9; simp
      simp [h1, h2, h3, h4, h5, h6, h7, h8, h9]

/-- All calls of a walk. -/
def calls (m : Model) (members : Bool) : List Call :=
  m.metadata.map (fun e => .metadata e.1 e.2) ++
  m.shapesList.flatMap fun s => .shape s.id s.traits s.body :: (if members then memberCalls s else [])

theorem calls_spec (m : Model) (hm : WfModel m) (members : Bool) : WalkCalls m members (calls m members) := by
  refine ⟨m.metadata, m.shapesList.map fun s => (s, if members then memberCalls s else []), ?_, AMap.nodup_of_wf hm.metaNodup,
    fun k x => AMap.mem_iff_get hm.metaNodup k x, ?_, ?_, ?_⟩
  · rw [calls, List.flatMap_map]
  · have : (m.shapesList.map fun s => (s, if members then memberCalls s else [])).map (·.1) = m.shapesList := by
      rw [List.map_map]; exact List.map_id _
    rw [this]
    have hk : m.shapesList.map (·.id) = AMap.keys m.shapes := by
      simp only [Model.shapesList, AMap.values, AMap.keys, List.map_map]
      apply List.map_congr_left
      intro e he
      exact hm.key _ _ (AMap.get_of_mem hm.nodup he)
    have := hm.nodup
    unfold AMap.Wf at this
    rw [← hk] at this
    exact List.Nodup.of_map _ this
  · intro s
    have : (m.shapesList.map fun s => (s, if members then memberCalls s else [])).map (·.1) = m.shapesList := by
      rw [List.map_map]; exact List.map_id _
    rw [this]
    simp only [Model.shapesList, AMap.values, List.mem_map, Prod.exists, Model.shape]
    constructor
    · rintro ⟨id, s', h, rfl⟩; exact ⟨id, AMap.get_of_mem hm.nodup h⟩
    · rintro ⟨id, h⟩; exact ⟨id, s, AMap.mem_of_get h, rfl⟩
  · intro b hb
    obtain ⟨s, hs, rfl⟩ := List.mem_map.mp hb
    cases members with
    | false => simp
    | true =>
      simp only [if_true]
      obtain ⟨e, he, rfl⟩ := List.mem_map.mp hs
      exact memberCalls_spec _ (hm.shapes e.1 e.2 (AMap.get_of_mem hm.nodup he))

end Visitor

open Visitor

/-- C39: a walk makes the calls it must make, in order, until the first one that fails, whose error it returns: every
metadata entry once, then every shape once, through the method for its kind, each directly followed by its members. -/
theorem C39_walk_with_members (m : Model) (hm : WfModel m) : ∃ cs, WalkCalls m true cs ∧
    ∀ (σ ε : Type) (v : ModelVisitor σ ε) (mv : MemberVisitor σ ε), (∀ s, v.memberVisitor s = some mv) →
      ∀ s s' r, walkModel m v s = (s', r) ↔ Performs (receive v mv) cs s s' r := by
  refine ⟨calls m true, calls_spec m hm true, fun σ ε v mv hv s s' r => ?_⟩
  have : walkModel m v = perform (receive v mv) (calls m true) := by
    rw [walkModel, calls, perform_append, ← forEach_map, forEach_blocks (receive v mv) (walkShape v) _ (walkShape_some v mv hv)]
    rfl
  rw [this]
  have hp := performs_perform (receive v mv) (calls m true) s
  constructor
  · intro h; rw [h] at hp; exact hp
  · intro h; obtain ⟨h1, h2⟩ := performs_unique hp h; exact Prod.ext h1 h2

/-- C39: the same without a visitor for members: no member is visited. -/
theorem C39_walk_without_members (m : Model) (hm : WfModel m) : ∃ cs, WalkCalls m false cs ∧
    ∀ (σ ε : Type) (v : ModelVisitor σ ε) (mv : MemberVisitor σ ε), (∀ s, v.memberVisitor s = none) →
      ∀ s s' r, walkModel m v s = (s', r) ↔ Performs (receive v mv) cs s s' r := by
  refine ⟨calls m false, calls_spec m hm false, fun σ ε v mv hv s s' r => ?_⟩
  have : walkModel m v = perform (receive v mv) (calls m false) := by
    rw [walkModel, calls, perform_append, ← forEach_map, forEach_blocks (receive v mv) (walkShape v) _ (walkShape_none v mv hv)]
    rfl
  rw [this]
  have hp := performs_perform (receive v mv) (calls m false) s
  constructor
  · intro h; rw [h] at hp; exact hp
  · intro h; obtain ⟨h1, h2⟩ := performs_unique hp h; exact Prod.ext h1 h2

/-- A visitor that counts its calls and fails at the call number `n`. -/
def countdown (n : Nat) : ModelVisitor Nat Str :=
  let f : Step Nat Str := fun s => (s + 1, if s + 1 = n then .error %s"enough" else .ok ())
  ⟨fun _ _ => f, fun _ _ _ => f, fun _ _ _ => f, fun _ _ _ => f, fun _ _ _ => f, fun _ _ _ => f, fun _ _ _ => f, fun _ _ _ => f,
    fun _ _ _ => f, fun _ _ _ => f, fun _ _ => f, fun _ => some fun _ _ _ _ => f⟩

/-- A well-formed model is walked to the end by a visitor that fails later, and stopped at the failing call. -/
example : WfModel exModel ∧ ∃ n, (walkModel exModel (countdown (n + 1)) 0).2 = .ok () ∧
    (walkModel exModel (countdown (n + 1)) 0).1 = n ∧ n ≥ 3 ∧ walkModel exModel (countdown 2) 0 = (2, .error %s"enough") :=
  ⟨exModel_wf, 3, rfl, rfl, by decide, rfl⟩

end Verif
