/-
C76-C79: the PlantUML text of a model.
-/
import Verif.PlantUml
import Verif.PlantUmlSpec
import Verif.JsonProps
import Mathlib.Data.List.Forall2

namespace Verif
open Spec
namespace PlantUml
open Spec.Uml

/-! ### Outcomes -/

/-- The step panics if `bad`, and else writes this. -/
def Outcome (e : Except Err Str) (bad : Prop) (good : Str) : Prop := (¬ bad → e = .ok good) ∧ (bad → e = .error .panic)

theorem Outcome.congr {e : Except Err Str} {P Q : Prop} {s t : Str} (h : Outcome e P s) (h1 : P ↔ Q) (h2 : s = t) : Outcome e Q t := by
  subst h2; exact ⟨fun hq => h.1 (mt h1.mp hq), fun hq => h.2 (h1.mpr hq)⟩

theorem outcome_ok (s : Str) : Outcome (.ok s) False s := ⟨fun _ => rfl, nofun⟩

theorem outcome_then {a b : Except Err Str} {P Q : Prop} {s t : Str} (ha : Outcome a P s) (hb : Outcome b Q t) :
    Outcome (thenWrite a b) (P ∨ Q) (s ++ t) := by
  classical
  by_cases hP : P
  · exact ⟨fun h => absurd (.inl hP) h, fun _ => by rw [ha.2 hP]; rfl⟩
  · rw [ha.1 hP]
    by_cases hQ : Q
    · exact ⟨fun h => absurd (.inr hQ) h, fun _ => by rw [hb.2 hQ]; rfl⟩
    · exact ⟨fun _ => by rw [hb.1 hQ]; rfl, fun h => absurd h (by tauto)⟩

theorem outcome_all {α : Type} {f : α → Except Err Str} {P : α → Prop} {g : α → Str} (l : List α) (h : ∀ x ∈ l, Outcome (f x) (P x) (g x)) :
    Outcome (writeAll f l) (∃ x ∈ l, P x) (l.flatMap g) := by
  induction l with
  | nil => exact (outcome_ok []).congr (by simp) rfl
  | cons x l ih =>
    have := outcome_then (h x List.mem_cons_self) (ih fun y hy => h y (List.mem_cons_of_mem _ hy))
    refine Outcome.congr (e := writeAll f (x :: l)) (P := P x ∨ ∃ x ∈ l, P x) (s := g x ++ l.flatMap g) ?_ (by simp) (by simp)
    have he : writeAll f (x :: l) = thenWrite (f x) (writeAll f l) := by
      simp only [writeAll, thenWrite]
    rw [he]; exact this

theorem outcome_option {α : Type} {f : α → Except Err Str} {P : α → Prop} {g : α → Str} (o : Option α) (h : ∀ x, Outcome (f x) (P x) (g x)) :
    Outcome (writeOption f o) (∃ x ∈ o.toList, P x) (o.toList.flatMap g) := by
  cases o with
  | none => exact (outcome_ok []).congr (by simp) rfl
  | some x => exact (h x).congr (by simp) (by simp)

/-! ### Operations -/

theorem typeString_eq (m : Model) (id : ShapeID) : typeString id m = typeText m id := by
  unfold typeString typeText
  cases h : m.shape id with
  | none => rfl
  | some s => cases hb : s.body <;> simp [hb]

/-- The line of an operation; nothing if it is not defined. -/
def opLine (m : Model) (name : Option Str) (id : ShapeID) : Str :=
  match (m.shape id).map TopLevelShape.body with
  | some (.operation o) => operationLine m (name.getD id.display) o
  | _ => []

theorem outcome_operation {m : Model} (hw : WfModel m) (id : ShapeID) (name : Option Str) :
    Outcome (writeOperation id m name) (∀ o, ¬ IsOperation m id o) (opLine m name id) := by
  unfold writeOperation opLine
  cases h : m.shape id with
  | none =>
    refine ⟨fun hn => absurd ?_ hn, fun _ => rfl⟩
    rintro o ⟨s, hs, -⟩; rw [h] at hs; cases hs
  | some s =>
    have hid := hw.key _ _ h
    cases hb : s.body with
    | operation o =>
      refine ⟨fun _ => ?_, fun hn => absurd ⟨s, h, hb⟩ (hn o)⟩
      simp only [Option.map_some, hb, operationLine, line, typeString_eq]
      cases name <;> cases o.input <;> cases o.output <;> simp [hid]
    | _ =>
      refine ⟨fun hn => absurd ?_ hn, fun _ => by simp only [hb]⟩
      rintro o ⟨s', hs, hb'⟩; rw [h] at hs; cases hs; rw [hb] at hb'; cases hb'

theorem lines_ok {m : Model} {name : Option Str} {ids : List ShapeID} (h : ∀ id ∈ ids, ∃ o, IsOperation m id o) :
    OperationLines m name ids (ids.flatMap (opLine m name)) := by
  refine ⟨ids.map (opLine m name), by simp [List.flatMap], ?_⟩
  induction ids with
  | nil => exact .nil
  | cons id ids ih =>
    refine .cons ?_ (ih fun x hx => h x (List.mem_cons_of_mem _ hx))
    obtain ⟨o, s, hs, hb⟩ := h id List.mem_cons_self
    exact ⟨o, ⟨s, hs, hb⟩, by simp [opLine, hs, hb]⟩

/-! ### Traits and notes -/

theorem doc_not_error {t : ShapeID} (h : t.ceq documentationTrait = true) : t.ceq errorTrait = false := by
  obtain ⟨ns, n, mm⟩ := t
  by_contra he
  simp only [ShapeID.ceq, documentationTrait, errorTrait, Bool.and_eq_true, Bool.not_eq_false, identEq, beq_iff_eq] at h he
  have := h.1.2.symm.trans he.1.2
  revert this; decide

theorem classTraits_eq (f : Fmt) (l : List (ShapeID × TraitValue)) : classTraits f l =
    ((l.filter fun e => !isError e.1 && !isDocumentation e.1).map (fun e => traitLine f e.1 e.2),
     (l.filter fun e => isDocumentation e.1).flatMap fun e => match e.2 with
       | some (.string d) => [d]
       | _ => []) := by
  induction l with
  | nil => rfl
  | cons e l ih =>
    obtain ⟨id, v⟩ := e
    simp only [classTraits, ih]
    by_cases hd : id.ceq documentationTrait = true
    · have he := doc_not_error hd
      have hd' : isDocumentation id = true := hd
      have he' : isError id = false := he
      simp only [he, hd, Bool.false_eq_true, if_false, if_true, List.filter_cons, hd', he', Bool.not_true, Bool.and_false, List.flatMap_cons]
      cases v with
      | none => rfl
      | some v => cases v <;> rfl
    · have hd0 : id.ceq documentationTrait = false := by simpa using hd
      have hd' : isDocumentation id = false := hd0
      by_cases he : id.ceq errorTrait = true
      · have he' : isError id = true := he
        simp only [he, if_true, List.filter_cons, hd', he', Bool.not_true, Bool.false_and, Bool.false_eq_true, if_false]
      · have he0 : id.ceq errorTrait = false := by simpa using he
        have he' : isError id = false := he0
        simp only [he0, hd0, if_true, List.filter_cons, hd', he', Bool.not_false, Bool.true_and, Bool.false_eq_true, if_false, List.map_cons]
        refine Prod.ext (congrArg (· :: _) ?_) rfl
        cases v with
        | none => simp [traitLine]
        | some v =>
          cases v with
          | boolean b => cases b <;> simp [traitLine, showBool]
          | _ => simp [traitLine]

theorem traits_ok (f : Fmt) (s : TopLevelShape) : (writeClassTraits f s).1 = traitsText f s := by
  simp only [writeClassTraits, classTraits_eq, traitsText, List.isEmpty_iff]
  split
  · rfl
  · simp [line]

theorem docs_ok (f : Fmt) (s : TopLevelShape) : (writeClassTraits f s).2 = documentationOf s := by
  simp only [writeClassTraits, classTraits_eq]; rfl

theorem notes_eq (f : Fmt) (s : TopLevelShape) (n : Nat) (l : List Str) :
    writeClassNotes f s.id n l = (l.zipIdx n).flatMap fun e => noteText f s e.1 e.2 := by
  induction l generalizing n with
  | nil => rfl
  | cons x l ih =>
    rw [writeClassNotes, List.zipIdx_cons, List.flatMap_cons, ih]
    simp only [noteText, List.contains_iff_mem]
    split <;> simp [line]

theorem notes_ok (f : Fmt) (s : TopLevelShape) : writeClassNotes f s.id 0 (writeClassTraits f s).2 = notesText f s := by
  rw [notes_eq, docs_ok]; rfl

/-! ### Drawings -/

/-- What is drawn for a shape. -/
def drawing (expand : Bool) (f : Fmt) (m : Model) (s : TopLevelShape) : Str :=
  let (traits, notes) := writeClassTraits f s
  match s.body with
  | .simple b => writeDataType expand f s b
  | .service b => line (%s"    class " ++ s.id.display ++ %s" <<service>> {") ++ traits ++
      line (%s"        version: string = \"" ++ b.version ++ %s"\"") ++ (b.operations.flatMap (opLine m none) ++
      (line %s"    }" ++ writeClassNotes f s.id 0 notes ++
      b.resources.flatMap (fun r => line (%s"    " ++ s.id.display ++ %s" *-- " ++ r.display)) ++ line []))
  | .resource b => line (%s"    class " ++ s.id.display ++ %s" <<resource>> {") ++ traits ++
      b.identifiers.flatMap (fun (e : Str × ShapeID) => line (%s"        " ++ e.1 ++ %s": " ++ e.2.display)) ++
      ((lifecycle b).flatMap (opLine m (some %s"create")) ++
      ((if b.operations = [] then [] else %s"        ..operations..\n") ++ b.operations.flatMap (opLine m none) ++
      ((if b.collectionOperations = [] then [] else %s"        ..collectionOperations..\n") ++ b.collectionOperations.flatMap (opLine m none) ++
      (line %s"    }" ++ writeClassNotes f s.id 0 notes ++
      b.resources.flatMap (fun r => line (%s"    " ++ s.id.display ++ %s" *-- " ++ r.display)) ++ line []))))
  | .struct ms => writeClass f s false ms
  | .union ms => writeClass f s true ms
  | _ => []

theorem outcome_element (expand : Bool) (f : Fmt) {m : Model} (hw : WfModel m) (s : TopLevelShape) :
    Outcome (writeElement expand f m s) (∃ id ∈ operationsOf s.body, ∀ o, ¬ IsOperation m id o) (drawing expand f m s) := by
  unfold writeElement drawing
  cases hb : s.body with
  | service b =>
    refine (outcome_then (outcome_ok _) (outcome_then (outcome_all b.operations fun x _ => outcome_operation hw x none) (outcome_ok _))).congr ?_ rfl
    simp [operationsOf]
  | resource b =>
    have ops : ∀ (l : List ShapeID) (h : Str), Outcome (if l.isEmpty then .ok [] else thenWrite (.ok h) (writeAll (fun o => writeOperation o m none) l))
        (∃ id ∈ l, ∀ o, ¬ IsOperation m id o) ((if l = [] then [] else h) ++ l.flatMap (opLine m none)) := by
      intro l h
      cases l with
      | nil => exact (outcome_ok []).congr (by simp) rfl
      | cons x l =>
        refine (outcome_then (outcome_ok h) (outcome_all (x :: l) fun x _ => outcome_operation hw x none)).congr (by simp) ?_
        simp
    have life := fun o : Option ShapeID => outcome_option o fun x => outcome_operation hw x (some %s"create")
    refine (outcome_then (outcome_ok _) (outcome_then (life b.create) (outcome_then (life b.put) (outcome_then (life b.read) (outcome_then (life b.update)
      (outcome_then (life b.delete) (outcome_then (life b.list) (outcome_then (ops b.operations _) (outcome_then (ops b.collectionOperations _) (outcome_ok _)))))))))).congr ?_ ?_
    · simp only [operationsOf, lifecycle, List.mem_append, or_and_right, exists_or, false_or, or_false, or_assoc]
    · simp only [lifecycle, List.flatMap_append, List.append_assoc]
      rfl
  | _ => exact (outcome_ok _).congr (by simp [operationsOf]) rfl

theorem draws_ok (expand : Bool) (f : Fmt) {m : Model} {s : TopLevelShape} (hw : WfKind s.body) (h : ∀ id ∈ operationsOf s.body, ∃ o, IsOperation m id o) :
    Draws expand f m s (drawing expand f m s) := by
  have ht := traits_ok f s
  have hn := notes_ok f s
  have hmem : ∀ {ms : AMap Str MemberShape}, WfMembers ms →
      (AMap.values ms).flatMap (fun x => line (%s"        " ++ x.id ++ %s": " ++ x.target.display)) =
      ms.flatMap (fun (e : Str × MemberShape) => %s"        " ++ e.1 ++ %s": " ++ e.2.target.display ++ %s"\n") := by
    intro ms hms
    unfold AMap.values
    rw [List.flatMap_map]
    refine congrArg List.flatten (List.map_congr_left fun e he => ?_)
    rw [← hms.key e.1 e.2 (AMap.get_of_mem hms.nodup he)]
    simp [line]
  have hc : ∀ t : ShapeID, (AMap.contains s.traits t = true) ↔ t ∈ s.traits.map (·.1) := fun t => AMap.contains_iff _ t
  unfold Draws heading drawing
  cases hb : s.body with
  | simple b =>
    cases expand <;> simp [writeDataType, line, ht, docs_ok]
  | service b =>
    rw [hb] at h
    refine ⟨_, lines_ok h, ?_⟩
    simp [line, associations, ht, hn]
  | resource b =>
    rw [hb] at h
    simp only [operationsOf, List.mem_append] at h
    refine ⟨_, _, _, lines_ok fun id hi => h id (.inl (.inl hi)), lines_ok fun id hi => h id (.inl (.inr hi)), lines_ok fun id hi => h id (.inr hi), ?_⟩
    simp [line, associations, ht, hn]
  | struct ms =>
    rw [hb] at hw
    simp only [writeClass, hmem hw, ht, hn]
    by_cases h1 : traitTrait ∈ s.traits.map (·.1)
    · rw [if_pos ((hc _).mpr h1), if_pos (show (⟨%s"smithy.api", %s"trait", none⟩ : ShapeID) ∈ s.traits.map (·.1) from h1)]
      simp [line]
    · rw [if_neg (mt (hc _).mp h1), if_neg (show ¬ (⟨%s"smithy.api", %s"trait", none⟩ : ShapeID) ∈ s.traits.map (·.1) from h1)]
      by_cases h2 : errorTrait ∈ s.traits.map (·.1)
      · rw [if_pos ((hc _).mpr h2), if_pos (show (⟨%s"smithy.api", %s"error", none⟩ : ShapeID) ∈ s.traits.map (·.1) from h2)]
        simp [line]
      · rw [if_neg (mt (hc _).mp h2), if_neg (show ¬ (⟨%s"smithy.api", %s"error", none⟩ : ShapeID) ∈ s.traits.map (·.1) from h2)]
        simp [line]
  | union ms =>
    rw [hb] at hw
    simp only [writeClass, hmem hw, ht, hn]
    by_cases h1 : traitTrait ∈ s.traits.map (·.1)
    · rw [if_pos ((hc _).mpr h1), if_pos (show (⟨%s"smithy.api", %s"trait", none⟩ : ShapeID) ∈ s.traits.map (·.1) from h1)]
      simp [line]
    · rw [if_neg (mt (hc _).mp h1), if_neg (show ¬ (⟨%s"smithy.api", %s"trait", none⟩ : ShapeID) ∈ s.traits.map (·.1) from h1)]
      by_cases h2 : errorTrait ∈ s.traits.map (·.1)
      · rw [if_pos ((hc _).mpr h2), if_pos (show (⟨%s"smithy.api", %s"error", none⟩ : ShapeID) ∈ s.traits.map (·.1) from h2)]
        simp [line]
      · rw [if_neg (mt (hc _).mp h2), if_neg (show ¬ (⟨%s"smithy.api", %s"error", none⟩ : ShapeID) ∈ s.traits.map (·.1) from h2)]
        simp [line]
  | _ => rfl

theorem mem_shapesList {m : Model} (hw : WfModel m) {s : TopLevelShape} : s ∈ m.shapesList ↔ ∃ id, m.shape id = some s := by
  unfold Model.shapesList AMap.values
  rw [List.mem_map]
  constructor
  · rintro ⟨⟨id, s⟩, h, rfl⟩; exact ⟨id, AMap.get_of_mem hw.nodup h⟩
  · rintro ⟨id, h⟩; exact ⟨(id, s), AMap.mem_of_get h, rfl⟩

theorem mem_namespaces {m : Model} (hw : WfModel m) {ns : Str} : ns ∈ m.namespaces ↔ IsNamespaceOf m ns := by
  unfold Model.namespaces Model.shapeNames IsNamespaceOf DefinesShape
  simp only [List.mem_eraseDups, List.mem_map, List.mem_filter, mem_shapesList hw]
  have hu : ∀ s : TopLevelShape, ((!s.isUnresolved) = true) ↔ s.body ≠ .unresolved := by
    rintro ⟨i, ts, b⟩
    cases b <;> simp [TopLevelShape.isUnresolved, ShapeKind.isUnresolved]
  constructor
  · rintro ⟨i, ⟨s, ⟨⟨id, hs⟩, hn⟩, rfl⟩, rfl⟩
    exact ⟨id, s, ⟨hs, (hu s).mp hn⟩, by rw [hw.key _ _ hs]⟩
  · rintro ⟨id, s, ⟨hs, hn⟩, rfl⟩
    exact ⟨id, ⟨s, ⟨⟨id, hs⟩, (hu s).mpr hn⟩, hw.key _ _ hs⟩, rfl⟩

theorem nodup_eraseDups {α : Type} [BEq α] [LawfulBEq α] : ∀ (n : Nat) (l : List α), l.length ≤ n → l.eraseDups.Nodup
  | _, [], _ => List.nodup_nil
  | 0, _ :: _, h => absurd h (by simp)
  | n + 1, x :: l, h => by
    rw [List.eraseDups_cons, List.nodup_cons]
    refine ⟨fun hx => ?_, nodup_eraseDups n _ (Nat.le_trans (List.length_filter_le _ _) (by simpa using h))⟩
    have := (List.mem_filter.mp (List.mem_eraseDups.mp hx)).2
    simp at this

theorem outcome_write (expand : Bool) (f : Fmt) {m : Model} (hw : WfModel m) :
    Outcome (write expand f m) (∃ id s, m.shape id = some s ∧ ∃ o ∈ operationsOf s.body, ∀ op, ¬ IsOperation m o op)
      (document expand (m.namespaces.map fun ns => package expand ns (m.shapesList.map (drawing expand f m)))) := by
  refine (outcome_then (outcome_ok _) (outcome_then (outcome_all m.namespaces fun ns _ =>
    outcome_then (outcome_ok _) (outcome_then (outcome_all m.shapesList fun s _ => outcome_element expand f hw s) (outcome_ok _))) (outcome_ok _))).congr ?_ ?_
  · simp only [false_or, or_false]
    constructor
    · rintro ⟨ns, -, s, hs, h⟩
      obtain ⟨id, hs⟩ := (mem_shapesList hw).mp hs
      exact ⟨id, s, hs, h⟩
    · rintro ⟨id, s, hs, h⟩
      refine ⟨id.ns, (mem_namespaces hw).mpr ⟨id, s, ⟨hs, ?_⟩, rfl⟩, s, (mem_shapesList hw).mpr ⟨id, hs⟩, h⟩
      intro hb
      rw [hb] at h
      obtain ⟨o, ho, -⟩ := h
      cases ho
  · unfold document
    have h1 : (line %s"@startuml" ++ line [] ++ line %s"hide empty members" ++ line [] ++ if expand then writeSmithyModel else []) = start expand := by
      set_option maxRecDepth 10000 in
      cases expand <;> rfl
    rw [h1]
    simp only [List.append_assoc]
    refine congrArg _ (congr (congrArg _ ?_) rfl)
    rw [List.flatMap]
    refine congrArg List.flatten (List.map_congr_left fun ns _ => ?_)
    cases expand <;> simp [package, line, List.flatMap]

/-! ### The theorems -/

/-- **C76** Writing panics exactly if a service or a resource refers to an operation that the model does not define as an operation; else
a text is written. -/
theorem C76_panics_iff (expand : Bool) (f : Fmt) (m : Model) (hw : WfModel m) :
    (write expand f m = .error .panic ↔ ∃ id s, m.shape id = some s ∧ ∃ o ∈ operationsOf s.body, ∀ op, ¬ IsOperation m o op) ∧
    (write expand f m ≠ .error .panic → ∃ text, write expand f m = .ok text) := by
  classical
  have h := outcome_write expand f hw
  refine ⟨⟨fun he => ?_, h.2⟩, fun he => ⟨_, h.1 fun hb => he (h.2 hb)⟩⟩
  by_contra hn
  rw [h.1 hn] at he; cases he

/-- **C77** The text has a package for every namespace of defined shapes, each once; and every package, whatever its namespace, has the drawings of
all shapes of the model. -/
theorem C77_packages (expand : Bool) (f : Fmt) (m : Model) (hw : WfModel m) (text : Str) (h : write expand f m = .ok text) :
    ∃ (namespaces : List Str) (draw : TopLevelShape → Str),
      text = document expand (namespaces.map fun ns => package expand ns (m.shapes.map fun e => draw e.2)) ∧
      namespaces.Nodup ∧ (∀ ns, ns ∈ namespaces ↔ IsNamespaceOf m ns) ∧ ∀ id s, m.shape id = some s → Draws expand f m s (draw s) := by
  classical
  have ho := outcome_write expand f hw
  have hb : ¬ ∃ id s, m.shape id = some s ∧ ∃ o ∈ operationsOf s.body, ∀ op, ¬ IsOperation m o op := by
    intro hb; rw [ho.2 hb] at h; cases h
  refine ⟨m.namespaces, drawing expand f m, ?_, nodup_eraseDups _ _ (Nat.le_refl _), fun ns => mem_namespaces hw, fun id s hs => ?_⟩
  · rw [ho.1 hb] at h
    rw [← Except.ok.inj h]
    unfold Model.shapesList AMap.values
    simp only [List.map_map, Function.comp_def]
  · refine draws_ok expand f (hw.shapes _ _ hs).body fun o hop => ?_
    by_contra hn
    exact hb ⟨id, s, hs, o, hop, fun op hop => hn ⟨op, hop⟩⟩

/-! ### What makes no difference -/

theorem classTraits_same (f : Fmt) {ts ts' : Traits} (h : LikeTraits ts ts') : classTraits f ts = classTraits f ts' := by
  induction h with
  | nil => rfl
  | @cons a b l l' hab hl ih =>
    obtain ⟨i, v⟩ := a
    obtain ⟨i', v'⟩ := b
    obtain ⟨rfl, hv⟩ := hab
    simp only [classTraits, ih]
    cases hv <;> rfl

theorem keys_same {ts ts' : Traits} (h : LikeTraits ts ts') : AMap.keys ts = AMap.keys ts' := by
  induction h with
  | nil => rfl
  | cons hab hl ih => unfold AMap.keys at *; rw [List.map_cons, List.map_cons, hab.1, ih]

theorem contains_same {ts ts' : Traits} (h : LikeTraits ts ts') (t : ShapeID) : AMap.contains ts t = AMap.contains ts' t := by
  rw [Bool.eq_iff_iff, AMap.contains_iff, AMap.contains_iff, keys_same h]

theorem shape_alike {m m' : Model} (h : AlikeModels m m') (id : ShapeID) :
    (m.shape id = none ∧ m'.shape id = none) ∨ ∃ s s', m.shape id = some s ∧ m'.shape id = some s' ∧ Alike s s' := by
  unfold AlikeModels at h
  unfold Model.shape
  revert h
  generalize m.shapes = l
  generalize m'.shapes = l'
  intro h
  induction h with
  | nil => exact .inl ⟨rfl, rfl⟩
  | @cons a b l l' hab hl ih =>
    obtain ⟨i, s⟩ := a
    obtain ⟨i', s'⟩ := b
    obtain ⟨rfl, hs⟩ := hab
    simp only [AMap.get_cons]
    by_cases hi : i = id
    · exact .inr ⟨s, s', if_pos hi, if_pos hi, hs⟩
    · rw [if_neg hi, if_neg hi]; exact ih

theorem typeString_alike {m m' : Model} (h : AlikeModels m m') (id : ShapeID) : typeString id m = typeString id m' := by
  unfold typeString
  rcases shape_alike h id with ⟨h1, h2⟩ | ⟨s, s', h1, h2, h3⟩
  · rw [h1, h2]
  · rw [h1, h2]
    cases h3 <;> simp_all

theorem writeOperation_alike {m m' : Model} (h : AlikeModels m m') (id : ShapeID) (n : Option Str) : writeOperation id m n = writeOperation id m' n := by
  unfold writeOperation
  rcases shape_alike h id with ⟨h1, h2⟩ | ⟨s, s', h1, h2, h3⟩
  · rw [h1, h2]
  · rw [h1, h2]
    cases h3 with
    | operation hi ho => simp only [hi, ho, typeString_alike h]
    | _ => rfl

theorem members_same {ms ms' : AMap Str MemberShape} (h : LikeMembers ms ms') :
    (AMap.values ms).flatMap (fun x => line (%s"        " ++ x.id ++ %s": " ++ x.target.display)) =
    (AMap.values ms').flatMap (fun x => line (%s"        " ++ x.id ++ %s": " ++ x.target.display)) := by
  unfold AMap.values
  induction h with
  | nil => rfl
  | cons hab hl ih => simp only [List.map_cons, List.flatMap_cons, hab.2.1, hab.2.2, ih]

theorem life_eq (m : Model) (r : Resource) (rest : Except Err Str) :
    thenWrite (writeOption (fun o => writeOperation o m (some %s"create")) r.create) (
    thenWrite (writeOption (fun o => writeOperation o m (some %s"create")) r.put) (
    thenWrite (writeOption (fun o => writeOperation o m (some %s"create")) r.read) (
    thenWrite (writeOption (fun o => writeOperation o m (some %s"create")) r.update) (
    thenWrite (writeOption (fun o => writeOperation o m (some %s"create")) r.delete) (
    thenWrite (writeOption (fun o => writeOperation o m (some %s"create")) r.list) rest))))) =
    thenWrite (writeAll (fun o => writeOperation o m (some %s"create")) (lifecycle r)) rest := by
  have nil : ∀ x, thenWrite (.ok []) x = x := by intro x; cases x <;> rfl
  have assoc : ∀ a b c, thenWrite (thenWrite a b) c = thenWrite a (thenWrite b c) := by
    intro a b c
    cases a <;> cases b <;> cases c <;> simp [thenWrite]
  have app : ∀ (a b : List ShapeID), writeAll (fun o => writeOperation o m (some %s"create")) (a ++ b) =
      thenWrite (writeAll (fun o => writeOperation o m (some %s"create")) a) (writeAll (fun o => writeOperation o m (some %s"create")) b) := by
    intro a b
    induction a with
    | nil => exact (nil _).symm
    | cons x a ih =>
      have he : ∀ l, writeAll (fun o => writeOperation o m (some %s"create")) (x :: l) =
        thenWrite (writeOperation x m (some %s"create")) (writeAll (fun o => writeOperation o m (some %s"create")) l) := fun l => by
          simp only [writeAll, thenWrite]
      rw [List.cons_append, he, he, ih, assoc]
  have opt : ∀ o : Option ShapeID, writeOption (fun o => writeOperation o m (some %s"create")) o =
      writeAll (fun o => writeOperation o m (some %s"create")) o.toList := by
    intro o
    cases o with
    | none => rfl
    | some x =>
      simp only [writeOption, Option.toList_some, writeAll]
      cases writeOperation x m (some %s"create") <;> simp
  unfold lifecycle
  simp only [opt, app, assoc]

theorem element_alike (expand : Bool) (f : Fmt) {m m' : Model} (h : AlikeModels m m') {s s' : TopLevelShape} (hs : Alike s s') :
    writeElement expand f m s = writeElement expand f m' s' := by
  cases hs with
  | simple ht => simp only [writeElement, writeDataType, writeClassTraits, classTraits_same f ht]
  | struct ht hm =>
    simp only [writeElement, writeClass, writeClassTraits, classTraits_same f ht, contains_same ht, members_same hm]
  | union ht hm =>
    simp only [writeElement, writeClass, writeClassTraits, classTraits_same f ht, contains_same ht, members_same hm]
  | service ht hv ho hr =>
    simp only [writeElement, writeService, writeClassTraits, classTraits_same f ht, hv, ho, hr, writeOperation_alike h]
  | resource ht hi hl ho hc hr =>
    simp only [writeElement, writeResource, writeClassTraits, classTraits_same f ht, life_eq, hi, ho, hc, hr, hl, writeOperation_alike h]
  | _ => rfl

theorem alike_id {s s' : TopLevelShape} (h : Alike s s') : s.id = s'.id ∧ s.isUnresolved = s'.isUnresolved := by
  cases h <;> exact ⟨rfl, rfl⟩

theorem namespaces_alike {m m' : Model} (h : AlikeModels m m') : m.namespaces = m'.namespaces := by
  unfold Model.namespaces Model.shapeNames Model.shapesList AMap.values
  refine congrArg _ (congrArg _ ?_)
  unfold AlikeModels at h
  revert h
  generalize m.shapes = l
  generalize m'.shapes = l'
  intro h
  induction h with
  | nil => rfl
  | @cons a b l l' hab hl ih =>
    obtain ⟨h1, h2⟩ := alike_id hab.2
    simp only [List.map_cons, List.filter_cons, h2]
    cases b.2.isUnresolved <;> simp [ih, h1]

/-- **C78** Shapes that differ only in the following are drawn the same way: in which operations are for which step of the lifecycle of a
resource (as long as their order is the same), in the traits of members, lists, sets, maps and operations, in the elements of arrays and
objects, in the renamed shapes of services, and in the errors of operations. -/
theorem C78_alike (expand : Bool) (f : Fmt) (m m' : Model) (h : AlikeModels m m') : write expand f m = write expand f m' := by
  have h1 : writeAll (writeElement expand f m) m.shapesList = writeAll (writeElement expand f m') m'.shapesList := by
    unfold Model.shapesList AMap.values
    have := fun s s' hs => element_alike expand f (m := m) (m' := m') h (s := s) (s' := s') hs
    have key : ∀ l l' : AMap ShapeID TopLevelShape, List.Forall₂ (fun a b => a.1 = b.1 ∧ Alike a.2 b.2) l l' →
        writeAll (writeElement expand f m) (l.map (·.2)) = writeAll (writeElement expand f m') (l'.map (·.2)) := by
      intro l l' hl
      induction hl with
      | nil => rfl
      | cons hab _ ih => simp only [List.map_cons, writeAll, this _ _ hab.2, ih]
    exact key _ _ h
  have h2 : writePackage expand f m = writePackage expand f m' := by
    funext ns
    simp only [writePackage, h1]
  simp only [write, h2, namespaces_alike h]

/-- **C78** Metadata is not drawn. -/
theorem C78_metadata (expand : Bool) (f : Fmt) (m : Model) (md : AMap Str Value) : write expand f { m with metadata := md } = write expand f m := rfl

theorem sameTraits_refl (ts : Traits) : LikeTraits ts ts := List.forall₂_same.mpr fun _ _ => ⟨rfl, .refl⟩

theorem sameMembers_refl (ms : AMap Str MemberShape) : LikeMembers ms ms := List.forall₂_same.mpr fun _ _ => ⟨rfl, rfl, rfl⟩

theorem alike_refl (s : TopLevelShape) : Alike s s := by
  obtain ⟨id, ts, b⟩ := s
  cases b with
  | simple => exact .simple (sameTraits_refl _)
  | struct => exact .struct (sameTraits_refl _) (sameMembers_refl _)
  | union => exact .union (sameTraits_refl _) (sameMembers_refl _)
  | service => exact .service (sameTraits_refl _) rfl rfl rfl
  | resource => exact .resource (sameTraits_refl _) rfl rfl rfl rfl rfl
  | list => exact .list rfl
  | set => exact .set rfl
  | map => exact .map rfl rfl
  | operation => exact .operation rfl rfl
  | unresolved => exact .unresolved

/-- **C78** In particular, a resource that can be created and one that can be deleted, by the same operation, are drawn the same way. -/
theorem C78_lifecycle (expand : Bool) (f : Fmt) (m : Model) (before after : AMap ShapeID TopLevelShape) (id operation : ShapeID) (ts : Traits)
    (r : Resource) (hr : lifecycle r = []) :
    write expand f { m with shapes := before ++ (id, ⟨id, ts, .resource { r with create := some operation }⟩) :: after } =
    write expand f { m with shapes := before ++ (id, ⟨id, ts, .resource { r with delete := some operation }⟩) :: after } := by
  refine C78_alike _ _ _ _ ?_
  have hrefl : ∀ l : AMap ShapeID TopLevelShape, List.Forall₂ (fun a b => a.1 = b.1 ∧ Alike a.2 b.2) l l :=
    fun l => List.forall₂_same.mpr fun _ _ => ⟨rfl, alike_refl _⟩
  refine List.rel_append (hrefl before) (.cons ⟨rfl, .resource (sameTraits_refl _) rfl ?_ rfl rfl rfl⟩ (hrefl after))
  simp only [lifecycle, List.append_eq_nil_iff, Option.toList_eq_nil_iff] at hr
  obtain ⟨⟨⟨⟨⟨h1, h2⟩, h3⟩, h4⟩, h5⟩, h6⟩ := hr
  simp [lifecycle, h1, h2, h3, h4, h5, h6]

/-! ### Texts that make up shapes -/

/-- A model with one string with documentation. -/
def _root_.Verif.Spec.Uml.documented (x : ShapeID) (doc : Str) : Model :=
  ⟨.v10, [], [(x, ⟨x, [(⟨%s"smithy.api", %s"documentation", none⟩, some (.string doc))], .simple .string⟩)]⟩

/-- A model with two strings. -/
def _root_.Verif.Spec.Uml.twoStrings (x y : ShapeID) (doc : Str) : Model :=
  ⟨.v10, [], [(x, ⟨x, [(⟨%s"smithy.api", %s"documentation", none⟩, some (.string doc))], .simple .string⟩), (y, ⟨y, [], .simple .string⟩)]⟩

/-- **C79** The documentation of a simple shape is written as it is, so it can make up shapes: for any documentation there is another one
with which the text is that of a model with any further string in the same namespace. -/
theorem C79_made_up (f : Fmt) (x y : ShapeID) (doc : Str) (h : x.ns = y.ns) :
    ∃ doc', write false f (documented x doc') = write false f (twoStrings x y doc) := by
  refine ⟨doc ++ %s"\n\n    class " ++ y.display ++ %s" <<dataType>> {\n    }\n    ", ?_⟩
  have hd : (⟨%s"smithy.api", %s"documentation", none⟩ : ShapeID).ceq errorTrait = false := by decide
  have hd2 : (⟨%s"smithy.api", %s"documentation", none⟩ : ShapeID).ceq documentationTrait = true := by decide
  have n1 : ∀ doc, (documented x doc).namespaces = [x.ns] := fun _ => rfl
  have n2 : (twoStrings x y doc).namespaces = [x.ns] := by
    have : (twoStrings x y doc).namespaces = [x.ns, y.ns].eraseDups := rfl
    rw [this, ← h]
    simp [List.eraseDups_cons]
  have b : ∀ m m' : Model, m.namespaces = [x.ns] → m'.namespaces = [x.ns] →
      writeAll (writeElement false f m) m.shapesList = writeAll (writeElement false f m') m'.shapesList → write false f m = write false f m' := by
    intro m m' a b c
    unfold write
    rw [a, b]
    simp only [writeAll, writePackage, c]
  refine b _ _ (n1 _) n2 ?_
  simp [documented, twoStrings, Model.shapesList, AMap.values, writeAll, writeElement, writeDataType, writeClassTraits, classTraits, hd, hd2, joinWith, line]

/-! ### The hypotheses can be met -/

/-- A service, its operation and the structure that is its input, and a string in another namespace. -/
def exUml : Model :=
  ⟨.v10, [], [(sid %s"V", ⟨sid %s"V", [], .service ⟨%s"1", [sid %s"O"], [], []⟩⟩),
    (sid %s"O", ⟨sid %s"O", [], .operation ⟨some (sid %s"S"), none, []⟩⟩),
    (sid %s"S", ⟨sid %s"S", [(errorTrait, some (.string %s"client"))], .struct [(%s"a", ⟨%s"a", [], ⟨%s"other", %s"T", none⟩⟩)]⟩),
    (⟨%s"other", %s"T", none⟩, ⟨⟨%s"other", %s"T", none⟩, [], .simple .string⟩)]⟩

theorem exUml_wf : WfModel exUml := by
  have hk : ∀ id s, exUml.shape id = some s → (id, s) ∈ exUml.shapes := fun id s h => AMap.mem_of_get h
  have hnt : WfTraits [] := goodTraits_nil.wf
  refine ⟨AMap.wf_nil, fun k v h => by simp [exUml] at h, by unfold AMap.Wf; decide, ?_, ?_, ?_⟩
  · intro id s h
    have := hk id s h
    simp [exUml] at this
    rcases this with ⟨rfl, rfl⟩ | ⟨rfl, rfl⟩ | ⟨rfl, rfl⟩ | ⟨rfl, rfl⟩ <;> rfl
  · intro id s h hm
    have := hk id s h
    simp [exUml] at this
    rcases this with ⟨rfl, rfl⟩ | ⟨rfl, rfl⟩ | ⟨rfl, rfl⟩ | ⟨rfl, rfl⟩ <;> cases hm
  · intro id s h
    have := hk id s h
    simp only [exUml, List.mem_cons, Prod.mk.injEq, List.not_mem_nil, or_false] at this
    rcases this with ⟨rfl, rfl⟩ | ⟨rfl, rfl⟩ | ⟨rfl, rfl⟩ | ⟨rfl, rfl⟩
    · exact ⟨hnt, AMap.wf_nil⟩
    · exact ⟨hnt, trivial⟩
    · exact ⟨⟨by unfold AMap.Wf; decide, fun id v h => by obtain ⟨_, h⟩ := get_one h; cases h; exact .string⟩,
        ⟨by unfold AMap.Wf; decide, fun k m h => by obtain ⟨rfl, rfl⟩ := get_one h; rfl,
        fun k m h => by obtain ⟨rfl, rfl⟩ := get_one h; exact hnt⟩⟩
    · exact ⟨hnt, trivial⟩

/-- C76 and C77: this model is written, with two packages that both have both drawings. -/
example (f : Fmt) : ∃ text, write false f exUml = .ok text ∧ IsNamespaceOf exUml %s"ex" ∧ IsNamespaceOf exUml %s"other" :=
  ⟨_, rfl, ⟨sid %s"S", _, ⟨rfl, nofun⟩, rfl⟩, ⟨⟨%s"other", %s"T", none⟩, _, ⟨rfl, nofun⟩, rfl⟩⟩

/-- C76: the service of this model refers to an operation that is not defined. -/
example (f : Fmt) : write false f exJsonModel = .error .panic :=
  (C76_panics_iff false f exJsonModel exJsonModel_ok.1).1.mpr
    ⟨sid %s"V", _, rfl, sid %s"O", by simp [operationsOf], fun o ⟨s, hs, _⟩ => by cases hs⟩

/-- C78: two different models that are alike. -/
example : AlikeModels
    ⟨.v10, [], [(sid %s"R", ⟨sid %s"R", [(sid %s"t", some (.array []))], .resource ⟨[], some (sid %s"O"), none, none, none, none, none, [], [], []⟩⟩)]⟩
    ⟨.v10, [], [(sid %s"R", ⟨sid %s"R", [(sid %s"t", some (.array [.string []]))], .resource ⟨[], none, none, none, none, none, some (sid %s"O"), [], [], []⟩⟩)]⟩ :=
  .cons ⟨rfl, .resource (.cons ⟨rfl, .array⟩ .nil) rfl rfl rfl rfl rfl⟩ .nil

/-- C79 for two strings of a namespace. -/
example (f : Fmt) : ∃ doc', write false f (documented (sid %s"A") doc') = write false f (twoStrings (sid %s"A") (sid %s"B") %s"doc") :=
  C79_made_up f _ _ _ rfl

end PlantUml
end Verif
