/-
C80-C83: the document about a model.
-/
import Verif.DescribeLemmas
import Verif.JsonProps
import Mathlib.Data.List.Nodup

namespace Verif
open Spec
namespace Describe
open Spec.Doc

/-! ### Outcomes -/

/-- The step panics if `bad`, and else adds these blocks. -/
def Outcome (e : Except Err (List Block)) (bad : Prop) (good : List Block) : Prop := (¬ bad → e = .ok good) ∧ (bad → e = .error .panic)

theorem Outcome.congr {e : Except Err (List Block)} {P Q : Prop} {s t : List Block} (h : Outcome e P s) (h1 : P ↔ Q) (h2 : s = t) : Outcome e Q t := by
  subst h2; exact ⟨fun hq => h.1 (mt h1.mp hq), fun hq => h.2 (h1.mpr hq)⟩

theorem outcome_ok (s : List Block) : Outcome (.ok s) False s := ⟨fun _ => rfl, nofun⟩

theorem outcome_then {a b : Except Err (List Block)} {P Q : Prop} {s t : List Block} (ha : Outcome a P s) (hb : Outcome b Q t) :
    Outcome (andThen a b) (P ∨ Q) (s ++ t) := by
  classical
  by_cases hP : P
  · exact ⟨fun h => absurd (.inl hP) h, fun _ => by rw [ha.2 hP]; rfl⟩
  · rw [ha.1 hP]
    by_cases hQ : Q
    · exact ⟨fun h => absurd (.inr hQ) h, fun _ => by rw [hb.2 hQ]; rfl⟩
    · exact ⟨fun _ => by rw [hb.1 hQ]; rfl, fun h => absurd h (by tauto)⟩

theorem outcome_all {α : Type} {f : α → Except Err (List Block)} {P : α → Prop} {g : α → List Block} (l : List α)
    (h : ∀ x ∈ l, Outcome (f x) (P x) (g x)) : Outcome (forAll f l) (∃ x ∈ l, P x) (l.flatMap g) := by
  induction l with
  | nil => exact (outcome_ok []).congr (by simp) rfl
  | cons x l ih =>
    exact (outcome_then (h x List.mem_cons_self) (ih fun y hy => h y (List.mem_cons_of_mem _ hy))).congr (by simp) (by simp)

theorem outcome_docs (f : Fmt) (ts : Traits) : Outcome (describeDocumentation f ts) (BadDocumentation ts) (documentation f ts) :=
  describeDocumentation_eq f ts

/-! ### Shapes -/

/-- The blocks for a body. -/
def bodyBlocks (f : Fmt) (id : ShapeID) : ShapeKind → List Block
  | .list m | .set m => .paragraph [.bold %s"Member type: ", shapeLink id m.target] :: documentation f m.traits
  | .map k v => .paragraph [.bold %s"Key type: ", shapeLink id k.target] :: documentation f k.traits ++
      .paragraph [.bold %s", value type: ", shapeLink id v.target] :: documentation f v.traits
  | .struct ms | .union ms => if ms = [] then [] else .heading 3 %s"Members" none :: ((AMap.values ms).flatMap fun x => documentation f x.traits) ++
      [.quote ((AMap.values ms).map fun x => .paragraph [.code x.id, .plain %s": ", shapeLink id x.target])]
  | .service s => describeService id s
  | .operation o => describeOperation id o
  | .resource r => describeResource id r
  | .simple _ | .unresolved => []

theorem outcome_body (f : Fmt) (id : ShapeID) (k : ShapeKind) :
    Outcome (describeBody f id k) (∃ x ∈ memberShapes k, BadDocumentation x.traits) (bodyBlocks f id k) := by
  have hs : ∀ ms : AMap Str MemberShape, Outcome (describeStructureOrUnion f id ms) (∃ x ∈ ms.map (·.2), BadDocumentation x.traits)
      (if ms = [] then [] else .heading 3 %s"Members" none :: ((AMap.values ms).flatMap fun x => documentation f x.traits) ++
        [.quote ((AMap.values ms).map fun x => .paragraph [.code x.id, .plain %s": ", shapeLink id x.target])]) := by
    intro ms
    unfold describeStructureOrUnion
    by_cases h : ms = []
    · subst h; exact (outcome_ok []).congr (by simp) rfl
    · rw [if_neg (by simpa using h), if_neg h]
      exact (outcome_then (outcome_ok _) (outcome_then (outcome_all (AMap.values ms) fun x _ => outcome_docs f x.traits) (outcome_ok _))).congr
        (by simp [AMap.values]) rfl
  have hl : ∀ x : MemberShape, Outcome (describeListOrSet f id x) (∃ y ∈ [x], BadDocumentation y.traits)
      (.paragraph [.bold %s"Member type: ", shapeLink id x.target] :: documentation f x.traits) := fun x =>
    (outcome_then (outcome_ok _) (outcome_docs f x.traits)).congr (by simp) rfl
  cases k with
  | list x => exact hl x
  | set x => exact hl x
  | map k v =>
    exact (outcome_then (outcome_ok _) (outcome_then (outcome_docs f k.traits) (outcome_then (outcome_ok _) (outcome_docs f v.traits)))).congr
      (by simp [memberShapes]) (by simp [bodyBlocks])
  | struct ms => exact hs ms
  | union ms => exact hs ms
  | _ => exact (outcome_ok _).congr (by simp [memberShapes]) rfl

/-- A shape that cannot be described. -/
def Bad (s : TopLevelShape) : Prop := BadDocumentation s.traits ∨ ∃ x ∈ memberShapes s.body, BadDocumentation x.traits

/-- The blocks for a shape. -/
def shapeBlocks (f : Fmt) (s : TopLevelShape) : List Block :=
  .heading 2 (s.id.name ++ %s" (" ++ kindText s.body ++ %s")") (some (shapeIdToLabel s.id)) :: documentation f s.traits ++ bodyBlocks f s.id s.body

theorem outcome_shape (f : Fmt) (s : TopLevelShape) : Outcome (describeShape f s) (Bad s) (shapeBlocks f s) :=
  (outcome_then (outcome_ok _) (outcome_then (outcome_docs f s.traits) (outcome_body f s.id s.body))).congr (by simp [Bad]) rfl

theorem label_eq (id : ShapeID) : shapeIdToLabel id = labelOf id := by
  unfold shapeIdToLabel labelOf; cases id.member <;> rfl

theorem link_eq {id : ShapeID} (h : id.member = none) (t : ShapeID) : shapeLink id t = refTo id t := by
  unfold shapeLink refTo
  simp only [identEq_iff, label_eq, h]

theorem body_part (f : Fmt) {id : ShapeID} (h : id.member = none) {k : ShapeKind} (hw : WfKind k) : BodyPart f id (bodyBlocks f id k) k := by
  have hs : ∀ ms : AMap Str MemberShape, WfMembers ms →
      ∃ docs, List.Forall₂ (fun (e : Str × MemberShape) d => DocumentationPart f e.2.traits d) ms docs ∧
      (if ms = [] then [] else .heading 3 %s"Members" none :: ((AMap.values ms).flatMap fun x => documentation f x.traits) ++
        [.quote ((AMap.values ms).map fun x => Block.paragraph [.code x.id, .plain %s": ", shapeLink id x.target])]) =
      if ms = [] then [] else .heading 3 %s"Members" none :: docs.flatten ++
        [.quote (ms.map fun (e : Str × MemberShape) => .paragraph [.code e.1, .plain %s": ", refTo id e.2.target])] := by
    intro ms hm
    refine ⟨_, forall₂_map (fun e => documentation f e.2.traits) _ fun e he =>
      documentation_part f (hm.traits e.1 e.2 (AMap.get_of_mem hm.nodup he)).nodup, ?_⟩
    unfold AMap.values
    rw [List.flatMap_map, List.map_map, List.flatMap]
    have : ms.map ((fun x => Block.paragraph [.code x.id, .plain %s": ", shapeLink id x.target]) ∘ (·.2)) =
        ms.map fun (e : Str × MemberShape) => .paragraph [.code e.1, .plain %s": ", refTo id e.2.target] :=
      List.map_congr_left fun e he => by
        simp only [Function.comp, link_eq h, hm.key e.1 e.2 (AMap.get_of_mem hm.nodup he)]
    rw [this]
  have hi : ∀ l : List ShapeID, (l.map fun x => [shapeLink id x]) = l.map fun x => [refTo id x] := fun l =>
    List.map_congr_left fun x _ => by rw [link_eq h]
  have hd : ∀ (t : Str) (l : List ShapeID), describeShapes id t l = listOf t (l.map fun x => [refTo id x]) := by
    intro t l
    unfold describeShapes listOf
    rw [hi]
    cases l <;> simp
  cases k with
  | list m => exact ⟨_, documentation_part f hw.nodup, by rw [← link_eq h]; rfl⟩
  | set m => exact ⟨_, documentation_part f hw.nodup, by rw [← link_eq h]; rfl⟩
  | map k v => exact ⟨_, _, documentation_part f hw.1.nodup, documentation_part f hw.2.nodup, by rw [← link_eq h, ← link_eq h]; rfl⟩
  | struct ms => exact hs ms hw
  | union ms => exact hs ms hw
  | service s =>
    simp only [BodyPart, bodyBlocks, describeService, hd]
    congr 2
    cases s.renames <;> simp
  | operation o =>
    simp only [BodyPart, bodyBlocks, describeOperation, hi]
    congr 1
    · cases o.input <;> cases o.output <;> simp [describeType, link_eq h]
    · cases o.errors <;> simp
  | resource r =>
    simp only [BodyPart, bodyBlocks, describeResource, hd]
    congr 3
    have : ∀ (n : Str) (o : Option ShapeID), lifecycleItem id n o = o.toList.map fun x => [.code n, .plain %s": ", refTo id x] := by
      intro n o
      cases o <;> simp [lifecycleItem, link_eq h]
    simp only [this]
    unfold listOf hasAnyResourceOperation
    cases r.create <;> cases r.put <;> cases r.read <;> cases r.update <;> cases r.delete <;> cases r.list <;> simp
  | simple s => rfl
  | unresolved => rfl

theorem kindText_eq {s : TopLevelShape} (h : s.body ≠ .unresolved) : kindText s.body = GraphML.typeOf s.body := by
  cases hb : s.body <;> first | rfl | exact absurd hb h

theorem member_none {m : Model} (hw : WfModel m) {id : ShapeID} {s : TopLevelShape} (h : DefinesShape m id s) : s.id = id ∧ s.id.member = none := by
  have hid := hw.key _ _ h.1
  refine ⟨hid, ?_⟩
  rw [hid]
  cases hm : id.member with
  | none => rfl
  | some x => exact absurd (hw.member _ _ h.1 (by simp [ShapeID.isMember, hm])) h.2

theorem shape_part (f : Fmt) {m : Model} (hw : WfModel m) {id : ShapeID} {s : TopLevelShape} (h : DefinesShape m id s) : ShapePart f s (shapeBlocks f s) := by
  obtain ⟨-, hn⟩ := member_none hw h
  have hs := hw.shapes _ _ h.1
  refine ⟨_, _, documentation_part f hs.traits.nodup, body_part f hn hs.body, ?_⟩
  unfold shapeBlocks headingOf
  rw [kindText_eq h.2, label_eq]

/-! ### Namespaces -/

/-- The shapes of a namespace, in order. -/
def shapesIn (m : Model) (ns : Str) : List TopLevelShape :=
  ((m.shapeNames.filter fun id => identEq id.ns ns).mergeSort fun a b => strLe a.display b.display).filterMap m.shape

theorem mem_shapeNames {m : Model} (hw : WfModel m) {id : ShapeID} : id ∈ m.shapeNames ↔ ∃ s, DefinesShape m id s := by
  unfold Model.shapeNames DefinesShape
  simp only [List.mem_map, List.mem_filter, PlantUml.mem_shapesList hw]
  have hu : ∀ s : TopLevelShape, ((!s.isUnresolved) = true) ↔ s.body ≠ .unresolved := by
    rintro ⟨i, ts, b⟩
    cases b <;> simp [TopLevelShape.isUnresolved, ShapeKind.isUnresolved]
  constructor
  · rintro ⟨s, ⟨⟨i, hs⟩, hn⟩, rfl⟩
    rw [hw.key _ _ hs]
    exact ⟨s, hs, (hu s).mp hn⟩
  · rintro ⟨s, hs, hn⟩
    exact ⟨s, ⟨⟨id, hs⟩, (hu s).mpr hn⟩, hw.key _ _ hs⟩

theorem shapesList_ids {m : Model} (hw : WfModel m) : m.shapesList.map (·.id) = m.shapes.map (·.1) := by
  unfold Model.shapesList AMap.values
  rw [List.map_map]
  exact List.map_congr_left fun e he => hw.key e.1 e.2 (AMap.get_of_mem hw.nodup he)

theorem shapeNames_nodup {m : Model} (hw : WfModel m) : m.shapeNames.Nodup := by
  have h : (m.shapesList.map (·.id)).Nodup := by rw [shapesList_ids hw]; exact nodup_of_wf hw.nodup
  exact h.sublist (List.filter_sublist.map _)

theorem filterMap_shape {m : Model} (hw : WfModel m) {l : List ShapeID} (h : ∀ id ∈ l, ∃ s, DefinesShape m id s) :
    (l.filterMap m.shape).map (·.id) = l ∧ ∀ s ∈ l.filterMap m.shape, DefinesShape m s.id s := by
  induction l with
  | nil => simp
  | cons x l ih =>
    obtain ⟨s, hs⟩ := h x List.mem_cons_self
    obtain ⟨h1, h2⟩ := ih fun y hy => h y (List.mem_cons_of_mem _ hy)
    rw [List.filterMap_cons_some hs.1]
    have hid := hw.key _ _ hs.1
    refine ⟨by rw [List.map_cons, h1, hid], ?_⟩
    intro t ht
    rcases List.mem_cons.mp ht with rfl | ht
    · rw [hid]; exact hs
    · exact h2 t ht

theorem mem_names_in {m : Model} (hw : WfModel m) {ns : Str} {id : ShapeID} :
    id ∈ ((m.shapeNames.filter fun id => identEq id.ns ns).mergeSort fun a b => strLe a.display b.display) ↔
    (∃ s, DefinesShape m id s) ∧ lower id.ns = lower ns := by
  rw [List.mem_mergeSort, List.mem_filter, mem_shapeNames hw, identEq_iff]

theorem shapesIn_ids {m : Model} (hw : WfModel m) (ns : Str) :
    (shapesIn m ns).map (·.id) = (m.shapeNames.filter fun id => identEq id.ns ns).mergeSort fun a b => strLe a.display b.display :=
  (filterMap_shape hw fun _ h => ((mem_names_in hw).mp h).1).1

theorem mem_shapesIn {m : Model} (hw : WfModel m) {ns : Str} {s : TopLevelShape} : s ∈ shapesIn m ns ↔ DefinesShape m s.id s ∧ lower s.id.ns = lower ns := by
  constructor
  · intro h
    have hd := (filterMap_shape hw fun _ h => ((mem_names_in hw (ns := ns)).mp h).1).2 s h
    have : s.id ∈ (shapesIn m ns).map (·.id) := List.mem_map_of_mem h
    rw [shapesIn_ids hw] at this
    exact ⟨hd, ((mem_names_in hw).mp this).2⟩
  · rintro ⟨h, hn⟩
    exact List.mem_filterMap.mpr ⟨s.id, (mem_names_in hw).mpr ⟨⟨s, h⟩, hn⟩, h.1⟩

/-- The blocks for a namespace. -/
def namespaceBlocks (f : Fmt) (m : Model) (ns : Str) : List Block :=
  .heading 1 (%s"Namespace " ++ ns) none :: (shapesIn m ns).flatMap (shapeBlocks f)

theorem namespace_part (f : Fmt) {m : Model} (hw : WfModel m) (ns : Str) : NamespacePart f m ns (namespaceBlocks f m ns) := by
  refine ⟨shapesIn m ns, _, fun s => mem_shapesIn hw, ?_, ?_, forall₂_map (shapeBlocks f) _ fun s hs => shape_part f hw ((mem_shapesIn hw).mp hs).1, rfl⟩
  · rw [shapesIn_ids hw]
    exact (List.mergeSort_perm _ _).nodup_iff.mpr ((shapeNames_nodup hw).filter _)
  · have := List.pairwise_mergeSort (le := fun a b : ShapeID => strLe a.display b.display) (fun a b c => strLe_trans a.display b.display c.display)
      (fun a b => strLe_total a.display b.display) (m.shapeNames.filter fun id => identEq id.ns ns)
    rw [← shapesIn_ids hw] at this
    exact List.pairwise_map.mp this

theorem outcome_namespace (f : Fmt) {m : Model} (hw : WfModel m) {ns : Str} (hns : Uml.IsNamespaceOf m ns) :
    Outcome (describeModelShapes f m ns) (∃ s ∈ shapesIn m ns, Bad s) (namespaceBlocks f m ns) := by
  unfold describeModelShapes
  obtain ⟨id, s, hd, rfl⟩ := hns
  have hne : (m.shapeNames.filter fun x => identEq x.ns id.ns) ≠ [] :=
    List.ne_nil_of_mem (List.mem_filter.mpr ⟨(mem_shapeNames hw).mpr ⟨s, hd⟩, identEq_refl _⟩)
  simp only [List.isEmpty_iff, hne, if_false]
  have hall : ∀ l : List ShapeID, (∀ x ∈ l, ∃ s, DefinesShape m x s) →
      Outcome (forAll (fun id => match m.shape id with | some s => describeShape f s | none => .error .panic) l)
        (∃ s ∈ l.filterMap m.shape, Bad s) ((l.filterMap m.shape).flatMap (shapeBlocks f)) := by
    intro l
    induction l with
    | nil => exact fun _ => (outcome_ok []).congr (by simp) rfl
    | cons x l ih =>
      intro h
      obtain ⟨s, hs⟩ := h x List.mem_cons_self
      rw [List.filterMap_cons_some hs.1, forAll, hs.1]
      exact (outcome_then (outcome_shape f s) (ih fun y hy => h y (List.mem_cons_of_mem _ hy))).congr (by simp) (by simp)
  exact (outcome_then (outcome_ok _) (hall _ fun x hx => ((mem_names_in hw).mp hx).1)).congr (by simp [shapesIn]) rfl

/-! ### The document -/

/-- The blocks before those for namespaces. -/
def frontBlocks (f : Fmt) (m : Model) : List Block :=
  .paragraph [.plain (%s"Smithy Version: " ++ m.version.display)] ::
    if m.metadata = [] then [] else .heading 1 %s"Metadata" none :: describeModelMetadata f m

/-- All blocks. -/
def modelBlocks (f : Fmt) (m : Model) : List Block := frontBlocks f m ++ m.namespaces.flatMap (namespaceBlocks f m)

theorem undocumentable_iff {m : Model} (hw : WfModel m) : (∃ ns ∈ m.namespaces, ∃ s ∈ shapesIn m ns, Bad s) ↔ Undocumentable m := by
  constructor
  · rintro ⟨ns, -, s, hs, hb⟩
    exact ⟨s.id, s, ((mem_shapesIn hw).mp hs).1, hb⟩
  · rintro ⟨id, s, hd, hb⟩
    obtain ⟨rfl, -⟩ := member_none hw hd
    exact ⟨s.id.ns, (PlantUml.mem_namespaces hw).mpr ⟨s.id, s, hd, rfl⟩, s, (mem_shapesIn hw).mpr ⟨hd, rfl⟩, hb⟩

theorem describe_eq (f : Fmt) {m : Model} (hw : WfModel m) :
    (¬ Undocumentable m → describeModel f m = .ok ⟨%s"Smithy Model", modelBlocks f m⟩) ∧ (Undocumentable m → describeModel f m = .error .panic) := by
  have h : Outcome (andThen (.ok ([.paragraph [.plain (%s"Smithy Version: " ++ m.version.display)]] ++
      if m.hasMetadata then .heading 1 %s"Metadata" none :: describeModelMetadata f m else [])) <|
      if m.hasShapes then forAll (describeModelShapes f m) m.namespaces else .ok []) (Undocumentable m) (modelBlocks f m) := by
    have h1 : ([.paragraph [.plain (%s"Smithy Version: " ++ m.version.display)]] ++
        if m.hasMetadata then .heading 1 %s"Metadata" none :: describeModelMetadata f m else []) = frontBlocks f m := by
      unfold frontBlocks Model.hasMetadata
      cases m.metadata <;> simp
    rw [h1]
    have h2 : (if m.hasShapes then forAll (describeModelShapes f m) m.namespaces else .ok []) = forAll (describeModelShapes f m) m.namespaces := by
      unfold Model.hasShapes Model.namespaces Model.shapeNames Model.shapesList
      cases m.shapes <;> simp [forAll, AMap.values]
    rw [h2]
    refine (outcome_then (outcome_ok _) (outcome_all m.namespaces fun ns hns => outcome_namespace f hw ((PlantUml.mem_namespaces hw).mp hns))).congr ?_ rfl
    rw [false_or, undocumentable_iff hw]
  unfold describeModel
  constructor
  · intro hu; rw [h.1 hu]
  · intro hu; rw [h.2 hu]

/-- C80: describing a model panics exactly when a shape that is defined, or one of its members, has documentation that is not a text; else there is a
document. -/
theorem C80_panics_iff (f : Fmt) (m : Model) (hw : WfModel m) :
    (describeModel f m = .error .panic ↔ Undocumentable m) ∧ (¬ Undocumentable m → ∃ d, describeModel f m = .ok d) := by
  obtain ⟨h1, h2⟩ := describe_eq f hw
  refine ⟨⟨fun h => ?_, h2⟩, fun h => ⟨_, h1 h⟩⟩
  by_contra hu
  rw [h1 hu] at h; cases h

/-- C81: the document has the version, a table of the metadata, and for each namespace the descriptions of its shapes, in the order of their ids. -/
theorem C81_document (f : Fmt) (m : Model) (hw : WfModel m) (d : Document) (h : describeModel f m = .ok d) : IsDocument f m d := by
  have hu : ¬ Undocumentable m := fun hu => by rw [(describe_eq f hw).2 hu] at h; cases h
  rw [(describe_eq f hw).1 hu] at h
  cases h
  refine ⟨if m.metadata = [] then [] else .heading 1 %s"Metadata" none :: describeModelMetadata f m, m.namespaces, m.namespaces.map (namespaceBlocks f m), ⟨_, forall₂_map (fun e => showValue f e.2) _ fun e _ => showValue_text f e.2, ?_⟩, PlantUml.nodup_eraseDups _ _ le_rfl,
    fun ns => PlantUml.mem_namespaces hw, forall₂_map _ _ fun ns _ => namespace_part f hw ns, rfl, ?_⟩
  · rw [map_zip_map]; rfl
  · rfl

/-! ### Headings -/

theorem titles_append (a b : List Block) : titles (a ++ b) = titles a ++ titles b := List.filterMap_append

theorem titles_flatMap {α : Type} (l : List α) (g : α → List Block) : titles (l.flatMap g) = l.flatMap fun x => titles (g x) := by
  induction l with
  | nil => rfl
  | cons x l ih => rw [List.flatMap_cons, titles_append, ih, List.flatMap_cons]

theorem titles_docs (f : Fmt) (ts : Traits) : titles (documentation f ts) = [] := by
  have h1 : titles (describeTraits f ts) = [] := by
    unfold describeTraits
    dsimp only
    split <;> rfl
  unfold documentation
  rw [titles_append, titles_append, h1]
  have h2 : ∀ l : List Inline, titles (if l.isEmpty then [] else [.paragraph (.plain %s"See also: " :: l)]) = [] := by
    intro l; split <;> rfl
  rw [List.append_nil, List.append_eq_nil_iff]
  refine ⟨?_, ?_⟩
  · split <;> rfl
  · split
    · exact h2 _
    · rfl

theorem titles_body (f : Fmt) (id : ShapeID) (k : ShapeKind) : titles (bodyBlocks f id k) = [] := by
  have hd : ∀ t l, titles (describeShapes id t l) = [] := by
    intro t l; unfold describeShapes; split <;> rfl
  have hc : ∀ (l : List Inline) (bs : List Block), titles (.paragraph l :: bs) = titles bs := fun _ _ => rfl
  have hm : ∀ ms : AMap Str MemberShape, titles (if ms = [] then [] else
      .heading 3 %s"Members" none :: ((AMap.values ms).flatMap fun x => documentation f x.traits) ++
      [.quote ((AMap.values ms).map fun x => Block.paragraph [.code x.id, .plain %s": ", shapeLink id x.target])]) = [] := by
    intro ms
    split
    · rfl
    · change titles (((AMap.values ms).flatMap fun x => documentation f x.traits) ++ _) = []
      rw [titles_append, titles_flatMap]
      simp only [titles_docs, List.flatMap_eq_nil_iff, List.append_eq_nil_iff]
      exact ⟨fun _ _ => trivial, rfl⟩
  cases k with
  | list m => exact titles_docs f _
  | set m => exact titles_docs f _
  | map k v =>
    simp only [bodyBlocks, List.cons_append, hc, titles_append, titles_docs, List.append_nil]
  | struct ms => exact hm ms
  | union ms => exact hm ms
  | service s =>
    simp only [bodyBlocks, describeService, titles_append, hd]
    split <;> rfl
  | operation o =>
    simp only [bodyBlocks, describeOperation, titles_append]
    cases o.input <;> cases o.output <;> simp only [describeType] <;> split <;> rfl
  | resource r =>
    simp only [bodyBlocks, describeResource, titles_append, hd]
    split <;> rfl
  | simple s => rfl
  | unresolved => rfl

/-- The heading of a shape. -/
def titleOf (s : TopLevelShape) : Str × Label := (s.id.name ++ %s" (" ++ GraphML.typeOf s.body ++ %s")", labelOf s.id)

theorem titles_shape (f : Fmt) {s : TopLevelShape} (h : s.body ≠ .unresolved) : titles (shapeBlocks f s) = [titleOf s] := by
  have : titles (shapeBlocks f s) = (s.id.name ++ %s" (" ++ kindText s.body ++ %s")", shapeIdToLabel s.id) ::
      titles (documentation f s.traits ++ bodyBlocks f s.id s.body) := rfl
  rw [this, titles_append, titles_docs, titles_body, kindText_eq h, label_eq]; rfl

theorem flatMap_singleton {α β : Type} (l : List α) (g : α → List β) (h : α → β) (hg : ∀ x ∈ l, g x = [h x]) : l.flatMap g = l.map h := by
  induction l with
  | nil => rfl
  | cons x l ih => rw [List.flatMap_cons, hg x List.mem_cons_self, ih fun y hy => hg y (List.mem_cons_of_mem _ hy)]; rfl

theorem titles_model (f : Fmt) {m : Model} (hw : WfModel m) :
    titles (modelBlocks f m) = (m.namespaces.flatMap (shapesIn m)).map titleOf := by
  have h1 : titles (frontBlocks f m) = [] := by
    unfold frontBlocks; split <;> rfl
  rw [modelBlocks, titles_append, h1, titles_flatMap, List.nil_append, List.map_flatMap]
  refine congrArg List.flatten (List.map_congr_left fun ns _ => ?_)
  have : titles (namespaceBlocks f m ns) = titles ((shapesIn m ns).flatMap (shapeBlocks f)) := rfl
  rw [this, titles_flatMap]
  exact flatMap_singleton _ _ _ fun s hs => titles_shape f ((mem_shapesIn hw).mp hs).1.2

theorem mem_definedShapes {m : Model} (hw : WfModel m) {s : TopLevelShape} : s ∈ GraphML.definedShapes m ↔ DefinesShape m s.id s := by
  have hu : ((!s.isUnresolved) = true) ↔ s.body ≠ .unresolved := by
    cases hb : s.body <;> simp [TopLevelShape.isUnresolved, ShapeKind.isUnresolved, hb]
  have : s ∈ m.shapes.map (·.2) ↔ ∃ id, m.shape id = some s := PlantUml.mem_shapesList hw
  unfold GraphML.definedShapes DefinesShape
  rw [List.mem_filter, hu, this]
  constructor
  · rintro ⟨⟨id, h⟩, hn⟩; rw [hw.key _ _ h]; exact ⟨h, hn⟩
  · rintro ⟨h, hn⟩; exact ⟨⟨_, h⟩, hn⟩

theorem nodup_shapesIn {m : Model} (hw : WfModel m) (ns : Str) : (shapesIn m ns).Nodup := by
  refine List.Nodup.of_map (·.id) ?_
  rw [shapesIn_ids hw]
  exact (List.mergeSort_perm _ _).nodup_iff.mpr ((shapeNames_nodup hw).filter _)

theorem all_shapes {m : Model} (hw : WfModel m) (hn : NamespacesDiffer m) :
    (m.namespaces.flatMap (shapesIn m)).Perm (GraphML.definedShapes m) := by
  refine (List.perm_ext_iff_of_nodup ?_ ?_).mpr fun s => ?_
  · rw [List.nodup_flatMap]
    refine ⟨fun ns _ => nodup_shapesIn hw ns, ?_⟩
    have hnd : m.namespaces.Nodup := PlantUml.nodup_eraseDups _ _ le_rfl
    refine List.Pairwise.imp_of_mem (fun {a b} ha hb hab => ?_) hnd
    intro s h1 h2
    exact hab (hn _ _ ((PlantUml.mem_namespaces hw).mp ha) ((PlantUml.mem_namespaces hw).mp hb)
      (((mem_shapesIn hw).mp h1).2.symm.trans ((mem_shapesIn hw).mp h2).2))
  · have h : (m.shapesList.map (·.id)).Nodup := by rw [shapesList_ids hw]; exact nodup_of_wf hw.nodup
    exact (List.Nodup.of_map _ h).filter _
  · rw [mem_definedShapes hw, List.mem_flatMap]
    constructor
    · rintro ⟨ns, -, h⟩; exact ((mem_shapesIn hw).mp h).1
    · intro h
      exact ⟨s.id.ns, (PlantUml.mem_namespaces hw).mpr ⟨s.id, s, h, rfl⟩, (mem_shapesIn hw).mpr ⟨h, rfl⟩⟩

/-- The document there is. -/
theorem describe_ok {f : Fmt} {m : Model} (hw : WfModel m) {d : Document} (h : describeModel f m = .ok d) : d.blocks = modelBlocks f m := by
  have hu : ¬ Undocumentable m := fun hu => by rw [(describe_eq f hw).2 hu] at h; cases h
  rw [(describe_eq f hw).1 hu] at h
  cases h; rfl

/-- C81: unless two namespaces differ only in the case of letters, every shape that is defined has one heading, and nothing else has one with a label. -/
theorem C81_once (f : Fmt) (m : Model) (hw : WfModel m) (hn : NamespacesDiffer m) (d : Document) (h : describeModel f m = .ok d) :
    (titles d.blocks).Perm ((GraphML.definedShapes m).map fun s => (s.id.name ++ %s" (" ++ GraphML.typeOf s.body ++ %s")", labelOf s.id)) := by
  rw [describe_ok hw h, titles_model f hw]
  exact (all_shapes hw hn).map _

/-- C81, where it fails: if two namespaces differ only in the case of letters, each of their shapes has more than one heading. -/
theorem C81_twice (f : Fmt) (m : Model) (hw : WfModel m) (a b : Str) (ha : Uml.IsNamespaceOf m a) (hb : Uml.IsNamespaceOf m b) (hab : a ≠ b)
    (hl : lower a = lower b) (d : Document) (h : describeModel f m = .ok d) (id : ShapeID) (s : TopLevelShape) (hd : DefinesShape m id s) (hns : id.ns = a) :
    2 ≤ (titles d.blocks).count (id.name ++ %s" (" ++ GraphML.typeOf s.body ++ %s")", labelOf id) := by
  obtain ⟨rfl, -⟩ := member_none hw hd
  rw [describe_ok hw h, titles_model f hw]
  have hin : ∀ ns, lower s.id.ns = lower ns → 1 ≤ ((shapesIn m ns).map titleOf).count (titleOf s) := by
    intro ns hns
    exact List.count_pos_iff.mpr (List.mem_map_of_mem ((mem_shapesIn hw).mpr ⟨hd, hns⟩))
  have h1 := hin a (by rw [hns])
  have h2 := hin b (by rw [hns]; exact hl)
  obtain ⟨l, hp⟩ : ∃ l, m.namespaces.Perm (a :: b :: l) := by
    have hma := (PlantUml.mem_namespaces hw).mpr ha
    have hmb := (PlantUml.mem_namespaces hw).mpr hb
    have p1 := List.perm_cons_erase hma
    have : b ∈ m.namespaces.erase a := (List.mem_erase_of_ne hab.symm).mpr hmb
    exact ⟨_, p1.trans ((List.perm_cons_erase this).cons a)⟩
  have hc := ((hp.flatMap_right (shapesIn m)).map titleOf).count_eq (titleOf s)
  rw [List.flatMap_cons, List.flatMap_cons, List.map_append, List.map_append, List.count_append, List.count_append] at hc
  change 2 ≤ List.count (titleOf s) _
  omega

/-! ### Content -/

theorem mem_inlinesAll {x : Inline} {bs : List Block} : x ∈ inlinesAll bs ↔ ∃ b ∈ bs, x ∈ inlines b := by
  induction bs with
  | nil => simp [inlinesAll]
  | cons b bs ih => simp [inlinesAll, ih]

theorem inlines_append (a b : List Block) : inlinesAll (a ++ b) = inlinesAll a ++ inlinesAll b := by
  induction a with
  | nil => rfl
  | cons x a ih => simp [inlinesAll, ih]

theorem mem_inlines_flatMap {α : Type} {x : Inline} {l : List α} {g : α → List Block} : x ∈ inlinesAll (l.flatMap g) ↔ ∃ y ∈ l, x ∈ inlinesAll (g y) := by
  induction l with
  | nil => simp [inlinesAll]
  | cons y l ih => rw [List.flatMap_cons, inlines_append]; simp [ih]

theorem inlines_traits (f : Fmt) (ts : Traits) : inlinesAll (describeTraits f ts) = [] := by
  unfold describeTraits
  dsimp only
  split <;> simp [inlinesAll, inlines]

theorem mem_docs {f : Fmt} {ts : Traits} {x : Inline} : x ∈ inlinesAll (documentation f ts) ↔
    (∃ s, AMap.get ts docTrait = some (some (.string s)) ∧ x = .plain s) ∨
    ∃ o, AMap.get ts extDocTrait = some (some (.object o)) ∧ o ≠ [] ∧ (x = .plain %s"See also: " ∨ ∃ k v, (k, v) ∈ o ∧ x = .external (showValue f v) k) := by
  unfold documentation
  rw [inlines_append, inlines_append, inlines_traits, List.append_nil, List.mem_append]
  refine or_congr ?_ ?_
  · split
    · rename_i s hs
      simp [inlinesAll, inlines, hs]
    · rename_i hs
      simp only [inlinesAll, List.not_mem_nil, false_iff]
      rintro ⟨s, h, -⟩
      exact hs s h
  · split
    · rename_i o ho
      cases o with
      | nil => simp [inlinesAll, ho]
      | cons e es =>
        simp only [List.map_cons, List.isEmpty_cons, Bool.false_eq_true, if_false, inlinesAll, inlines, List.append_nil, List.mem_cons, ho,
          Option.some.injEq, Value.object.injEq]
        constructor
        · rintro (h | h | h)
          · exact ⟨_, rfl, by simp, .inl h⟩
          · exact ⟨_, rfl, by simp, .inr ⟨e.1, e.2, by simp, h⟩⟩
          · obtain ⟨y, hy, h⟩ := List.mem_map.mp h
            exact ⟨_, rfl, by simp, .inr ⟨y.1, y.2, by simp [hy], h.symm⟩⟩
        · rintro ⟨o, rfl, -, h | ⟨k, v, hkv, h⟩⟩
          · exact .inl h
          · rcases List.mem_cons.mp hkv with rfl | hkv
            · exact .inr (.inl h)
            · exact .inr (.inr (List.mem_map.mpr ⟨_, hkv, h.symm⟩))
    · rename_i ho
      simp only [inlinesAll, List.not_mem_nil, false_iff]
      rintro ⟨o, h, -⟩
      exact ho o h

theorem link_not_docs {f : Fmt} {ts : Traits} {l : Label} {c : Str} : ¬ Inline.link l c ∈ inlinesAll (documentation f ts) := by
  rw [mem_docs]
  rintro (⟨s, -, h⟩ | ⟨o, -, -, h | ⟨k, v, -, h⟩⟩) <;> cases h

theorem shapes_inlines (id : ShapeID) (t : Str) (l : List ShapeID) : inlinesAll (describeShapes id t l) = l.map (shapeLink id) := by
  unfold describeShapes
  split
  · rename_i h; rw [List.isEmpty_iff.mp h]; rfl
  · simp only [inlinesAll, inlines, List.append_nil, List.nil_append]
    induction l with
    | nil => rfl
    | cons x l ih =>
      cases l with
      | nil => rfl
      | cons y l => simp only [List.map_cons, List.flatten_cons] at ih ⊢; rw [ih (by simp)]; rfl

theorem flatten_links (id : ShapeID) (l : List ShapeID) : (l.map fun x => [shapeLink id x]).flatten = l.map (shapeLink id) := by
  induction l with
  | nil => rfl
  | cons x l ih => rw [List.map_cons, List.flatten_cons, ih]; rfl

/-- The inline content about a body: its references, the documentation of its members, and texts. -/
theorem mem_body {f : Fmt} {id : ShapeID} {k : ShapeKind} {x : Inline} :
    (∀ t ∈ (GraphML.membersOf k).map (·.2), shapeLink id t ∈ inlinesAll (bodyBlocks f id k)) ∧
    (∀ y ∈ memberShapes k, ∀ x ∈ inlinesAll (documentation f y.traits), x ∈ inlinesAll (bodyBlocks f id k)) ∧
    (x ∈ inlinesAll (bodyBlocks f id k) →
      (∃ t ∈ (GraphML.membersOf k).map (·.2), x = shapeLink id t) ∨ (∃ y ∈ memberShapes k, x ∈ inlinesAll (documentation f y.traits)) ∨
      ∃ s, x = .plain s ∨ x = .bold s ∨ x = .code s) := by
  have hm : ∀ ms : AMap Str MemberShape,
      (∀ t ∈ ms.map (·.2.target), shapeLink id t ∈ inlinesAll (if ms = [] then [] else
        .heading 3 %s"Members" none :: ((AMap.values ms).flatMap fun x => documentation f x.traits) ++
        [.quote ((AMap.values ms).map fun x => Block.paragraph [.code x.id, .plain %s": ", shapeLink id x.target])])) ∧
      (∀ y ∈ ms.map (·.2), ∀ x ∈ inlinesAll (documentation f y.traits), x ∈ inlinesAll (if ms = [] then [] else
        .heading 3 %s"Members" none :: ((AMap.values ms).flatMap fun x => documentation f x.traits) ++
        [.quote ((AMap.values ms).map fun x => Block.paragraph [.code x.id, .plain %s": ", shapeLink id x.target])])) ∧
      (x ∈ inlinesAll (if ms = [] then [] else
        .heading 3 %s"Members" none :: ((AMap.values ms).flatMap fun x => documentation f x.traits) ++
        [.quote ((AMap.values ms).map fun x => Block.paragraph [.code x.id, .plain %s": ", shapeLink id x.target])]) →
        (∃ t ∈ ms.map (·.2.target), x = shapeLink id t) ∨ (∃ y ∈ ms.map (·.2), x ∈ inlinesAll (documentation f y.traits)) ∨
        ∃ s, x = .plain s ∨ x = .bold s ∨ x = .code s) := by
    intro ms
    by_cases h : ms = []
    · subst h; simp [inlinesAll]
    · rw [if_neg h]
      have he : ∀ x, x ∈ inlinesAll (.heading 3 %s"Members" none :: ((AMap.values ms).flatMap fun x => documentation f x.traits) ++
          [.quote ((AMap.values ms).map fun x => Block.paragraph [.code x.id, .plain %s": ", shapeLink id x.target])]) ↔
          (∃ y ∈ ms.map (·.2), x ∈ inlinesAll (documentation f y.traits)) ∨
          ∃ y ∈ ms.map (·.2), x = .code y.id ∨ x = .plain %s": " ∨ x = shapeLink id y.target := by
        intro x
        rw [List.cons_append]
        simp only [inlinesAll, inlines, List.nil_append, inlines_append, List.append_nil, List.mem_append, mem_inlines_flatMap]
        refine or_congr Iff.rfl ?_
        rw [mem_inlinesAll]
        simp only [AMap.values, List.mem_map, List.map_map]
        constructor
        · rintro ⟨b, ⟨e, he, rfl⟩, hx⟩
          exact ⟨e.2, ⟨e, he, rfl⟩, by simpa [inlines] using hx⟩
        · rintro ⟨y, ⟨e, he, rfl⟩, hx⟩
          exact ⟨_, ⟨e, he, rfl⟩, by simpa [inlines] using hx⟩
      refine ⟨fun t ht => ?_, fun y hy x hx => (he x).mpr (.inl ⟨y, hy, hx⟩), fun hx => ?_⟩
      · obtain ⟨e, hm, rfl⟩ := List.mem_map.mp ht
        exact (he _).mpr (.inr ⟨e.2, List.mem_map_of_mem hm, .inr (.inr rfl)⟩)
      · rcases (he x).mp hx with hx | ⟨y, hy, hx | hx | hx⟩
        · exact .inr (.inl hx)
        · exact .inr (.inr ⟨_, .inr (.inr hx)⟩)
        · exact .inr (.inr ⟨_, .inl hx⟩)
        · obtain ⟨e, hm, rfl⟩ := List.mem_map.mp hy
          exact .inl ⟨_, List.mem_map_of_mem hm, hx⟩
  have hl : ∀ y : MemberShape, (∀ t ∈ [y.target], shapeLink id t ∈ inlinesAll (.paragraph [.bold %s"Member type: ", shapeLink id y.target] :: documentation f y.traits)) ∧
      (∀ z ∈ [y], ∀ x ∈ inlinesAll (documentation f z.traits), x ∈ inlinesAll (.paragraph [.bold %s"Member type: ", shapeLink id y.target] :: documentation f y.traits)) ∧
      (x ∈ inlinesAll (.paragraph [.bold %s"Member type: ", shapeLink id y.target] :: documentation f y.traits) →
        (∃ t ∈ [y.target], x = shapeLink id t) ∨ (∃ z ∈ [y], x ∈ inlinesAll (documentation f z.traits)) ∨
        ∃ s, x = .plain s ∨ x = .bold s ∨ x = .code s) := by
    intro y
    simp only [inlinesAll, inlines, List.cons_append, List.nil_append, List.mem_cons, List.not_mem_nil, or_false, forall_eq, exists_eq_left]
    refine ⟨.inr (.inl trivial), fun x hx => .inr (.inr hx), ?_⟩
    rintro (h | h | h)
    · exact .inr (.inr ⟨_, .inr (.inl h)⟩)
    · exact .inl h
    · exact .inr (.inl h)
  have hopt : ∀ (n : Str) (o : Option ShapeID), inlinesAll (describeType id n o) = o.toList.flatMap fun t => [.bold n, .plain %s": ", shapeLink id t] := by
    intro n o; cases o <;> simp [describeType, inlinesAll, inlines]
  cases k with
  | list y => exact hl y
  | set y => exact hl y
  | map k v =>
    simp only [bodyBlocks, inlinesAll, inlines, inlines_append, List.cons_append, List.nil_append, List.mem_cons, List.mem_append, GraphML.membersOf,
      memberShapes, List.map_cons, List.map_nil, List.not_mem_nil, or_false, forall_eq_or_imp, forall_eq, exists_eq_or_imp, exists_eq_left]
    refine ⟨⟨.inr (.inl trivial), .inr (.inr (.inr (.inr (.inl trivial))))⟩, ⟨fun x hx => .inr (.inr (.inl hx)), fun x hx => .inr (.inr (.inr (.inr (.inr hx))))⟩, ?_⟩
    rintro (h | h | h | h | h | h)
    · exact .inr (.inr ⟨_, .inr (.inl h)⟩)
    · exact .inl (.inl h)
    · exact .inr (.inl (.inl h))
    · exact .inr (.inr ⟨_, .inr (.inl h)⟩)
    · exact .inl (.inr h)
    · exact .inr (.inl (.inr h))
  | struct ms =>
    have he : (GraphML.membersOf (.struct ms)).map (·.2) = ms.map (·.2.target) := by simp only [GraphML.membersOf, List.map_map, Function.comp_def]
    rw [he]; exact hm ms
  | union ms =>
    have he : (GraphML.membersOf (.union ms)).map (·.2) = ms.map (·.2.target) := by simp only [GraphML.membersOf, List.map_map, Function.comp_def]
    rw [he]; exact hm ms
  | service s =>
    have hr : ∀ x : Inline, x ∈ inlinesAll (if s.renames.isEmpty then [] else [.heading 3 %s"Renames" none,
        .quote [.list (s.renames.map fun (e : ShapeID × Str) => [Inline.code e.1.display, .plain %s" renamed to ", .code e.2])]]) →
        ∃ s, x = .plain s ∨ x = .bold s ∨ x = .code s := by
      intro x hx
      split at hx
      · cases hx
      · simp only [inlinesAll, inlines, List.append_nil, List.nil_append, List.mem_flatten, List.mem_map] at hx
        obtain ⟨_, ⟨e, -, rfl⟩, hx⟩ := hx
        simp only [List.mem_cons, List.not_mem_nil, or_false] at hx
        rcases hx with h | h | h
        · exact ⟨_, .inr (.inr h)⟩
        · exact ⟨_, .inl h⟩
        · exact ⟨_, .inr (.inr h)⟩
    simp only [bodyBlocks, describeService, inlines_append, shapes_inlines, GraphML.membersOf, List.map_append, List.map_map, Function.comp_def,
      memberShapes, List.mem_append, List.not_mem_nil, false_implies, implies_true, true_and, false_and, exists_false, false_or, List.map_id']
    refine ⟨?_, ?_⟩
    · rintro t (h | h)
      · exact .inl (.inl (.inr (List.mem_map_of_mem h)))
      · exact .inl (.inr (List.mem_map_of_mem h))
    · rintro (((h | h) | h) | h)
      · simp only [inlinesAll, inlines, List.append_nil, List.mem_cons, List.not_mem_nil, or_false] at h
        rcases h with h | h | h
        · exact .inr ⟨_, .inr (.inl h)⟩
        · exact .inr ⟨_, .inl h⟩
        · exact .inr ⟨_, .inl h⟩
      · obtain ⟨t, ht, rfl⟩ := List.mem_map.mp h
        exact .inl ⟨t, .inl ht, rfl⟩
      · obtain ⟨t, ht, rfl⟩ := List.mem_map.mp h
        exact .inl ⟨t, .inr ht, rfl⟩
      · exact .inr (hr _ h)
  | operation o =>
    have hr : ∀ x : Inline, x ∈ inlinesAll (if o.errors.isEmpty then [] else
        [.quote [.paragraph [.bold %s"Errors", .plain %s":"], .list (o.errors.map fun x => [shapeLink id x])]]) ↔
        o.errors ≠ [] ∧ (x = .bold %s"Errors" ∨ x = .plain %s":" ∨ x ∈ o.errors.map (shapeLink id)) := by
      intro x
      cases he : o.errors with
      | nil => simp [inlinesAll]
      | cons e es =>
        rw [if_neg (by simp)]
        simp only [inlinesAll, inlines, List.append_nil, flatten_links]
        simp
    simp only [bodyBlocks, describeOperation, inlines_append, hopt, GraphML.membersOf, List.map_append, List.map_map, Function.comp_def,
      memberShapes, List.mem_append, List.not_mem_nil, false_implies, implies_true, true_and, false_and, exists_false, false_or, List.map_id', hr]
    refine ⟨?_, ?_⟩
    · rintro t ((h | h) | h)
      · exact .inl (.inl (List.mem_flatMap.mpr ⟨t, h, by simp⟩))
      · exact .inl (.inr (List.mem_flatMap.mpr ⟨t, h, by simp⟩))
      · exact .inr ⟨List.ne_nil_of_mem h, .inr (.inr (List.mem_map_of_mem h))⟩
    · rintro ((h | h) | ⟨-, h | h | h⟩)
      · obtain ⟨t, ht, hx⟩ := List.mem_flatMap.mp h
        simp only [List.mem_cons, List.not_mem_nil, or_false] at hx
        rcases hx with h | h | h
        · exact .inr ⟨_, .inr (.inl h)⟩
        · exact .inr ⟨_, .inl h⟩
        · exact .inl ⟨t, .inl (.inl ht), h⟩
      · obtain ⟨t, ht, hx⟩ := List.mem_flatMap.mp h
        simp only [List.mem_cons, List.not_mem_nil, or_false] at hx
        rcases hx with h | h | h
        · exact .inr ⟨_, .inr (.inl h)⟩
        · exact .inr ⟨_, .inl h⟩
        · exact .inl ⟨t, .inl (.inr ht), h⟩
      · exact .inr ⟨_, .inr (.inl h)⟩
      · exact .inr ⟨_, .inl h⟩
      · obtain ⟨t, ht, rfl⟩ := List.mem_map.mp h
        exact .inl ⟨t, .inr ht, rfl⟩
  | resource r =>
    have hi : ∀ (n : Str) (o : Option ShapeID), (lifecycleItem id n o).flatten = o.toList.flatMap fun t => [.code n, .plain %s": ", shapeLink id t] := by
      intro n o; cases o <;> simp [lifecycleItem]
    have hr : inlinesAll (if hasAnyResourceOperation r then
        [.heading 3 %s"Resource Operations" none,
          .quote [.list (lifecycleItem id %s"create" r.create ++ lifecycleItem id %s"put" r.put ++ lifecycleItem id %s"read" r.read ++
            lifecycleItem id %s"update" r.update ++ lifecycleItem id %s"delete" r.delete ++ lifecycleItem id %s"list" r.list)]]
       else []) = ([(%s"create", r.create), (%s"put", r.put), (%s"read", r.read), (%s"update", r.update), (%s"delete", r.delete), (%s"list", r.list)].flatMap
         fun e => e.2.toList.flatMap fun t => [Inline.code e.1, .plain %s": ", shapeLink id t]) := by
      have : ([(%s"create", r.create), (%s"put", r.put), (%s"read", r.read), (%s"update", r.update), (%s"delete", r.delete), (%s"list", r.list)].flatMap
         fun e => e.2.toList.flatMap fun t => [Inline.code e.1, .plain %s": ", shapeLink id t]) =
         (lifecycleItem id %s"create" r.create ++ lifecycleItem id %s"put" r.put ++ lifecycleItem id %s"read" r.read ++
            lifecycleItem id %s"update" r.update ++ lifecycleItem id %s"delete" r.delete ++ lifecycleItem id %s"list" r.list).flatten := by
        simp only [List.flatten_append, hi, List.flatMap_cons, List.flatMap_nil, List.append_nil, List.append_assoc]
      rw [this]
      split
      · simp only [inlinesAll, inlines, List.append_nil, List.nil_append]
      · rename_i hn
        unfold hasAnyResourceOperation at hn
        simp only [Bool.or_eq_true, not_or, Bool.not_eq_true, Option.isSome_eq_false_iff, Option.isNone_iff_eq_none] at hn
        obtain ⟨⟨⟨⟨⟨h1, h2⟩, h3⟩, h4⟩, h5⟩, h6⟩ := hn
        rw [h1, h2, h3, h4, h5, h6]; rfl
    have hlife : ∀ t, t ∈ ([(%s"create", r.create), (%s"put", r.put), (%s"read", r.read), (%s"update", r.update), (%s"delete", r.delete), (%s"list", r.list)].flatMap
        fun e : Str × Option ShapeID => e.2.toList) ↔ (((((t ∈ r.create.toList ∨ t ∈ r.put.toList) ∨ t ∈ r.read.toList) ∨ t ∈ r.update.toList) ∨ t ∈ r.delete.toList) ∨ t ∈ r.list.toList) := by
      intro t; simp only [List.flatMap_cons, List.flatMap_nil, List.append_nil, List.mem_append, or_assoc]
    have hmem : ∀ t, t ∈ (GraphML.membersOf (.resource r)).map (·.2) ↔
        t ∈ ([(%s"create", r.create), (%s"put", r.put), (%s"read", r.read), (%s"update", r.update), (%s"delete", r.delete), (%s"list", r.list)].flatMap
        fun e : Str × Option ShapeID => e.2.toList) ∨ t ∈ r.operations ∨ t ∈ r.collectionOperations ∨ t ∈ r.resources := by
      intro t
      rw [hlife]
      simp only [GraphML.membersOf, List.map_append, List.map_map, Function.comp_def, List.map_id', List.mem_append, or_assoc]
    have hb : inlinesAll (bodyBlocks f id (.resource r)) = ([(%s"create", r.create), (%s"put", r.put), (%s"read", r.read), (%s"update", r.update), (%s"delete", r.delete), (%s"list", r.list)].flatMap
         fun e => e.2.toList.flatMap fun t => [Inline.code e.1, .plain %s": ", shapeLink id t]) ++ r.operations.map (shapeLink id) ++
         r.collectionOperations.map (shapeLink id) ++ r.resources.map (shapeLink id) := by
      simp only [bodyBlocks, describeResource, inlines_append, shapes_inlines, hr]
    rw [hb]
    simp only [hmem, memberShapes, List.mem_append, List.not_mem_nil, false_implies, implies_true, true_and, false_and, exists_false, false_or]
    refine ⟨?_, ?_⟩
    · rintro t (h | h | h | h)
      · obtain ⟨e, he, ht⟩ := List.mem_flatMap.mp h
        exact .inl (.inl (.inl (List.mem_flatMap.mpr ⟨e, he, List.mem_flatMap.mpr ⟨t, ht, by simp⟩⟩)))
      · exact .inl (.inl (.inr (List.mem_map_of_mem h)))
      · exact .inl (.inr (List.mem_map_of_mem h))
      · exact .inr (List.mem_map_of_mem h)
    · rintro (((h | h) | h) | h)
      · obtain ⟨e, he, h⟩ := List.mem_flatMap.mp h
        obtain ⟨t, ht, hx⟩ := List.mem_flatMap.mp h
        simp only [List.mem_cons, List.not_mem_nil, or_false] at hx
        rcases hx with h | h | h
        · exact .inr ⟨_, .inr (.inr h)⟩
        · exact .inr ⟨_, .inl h⟩
        · exact .inl ⟨t, .inl (List.mem_flatMap.mpr ⟨e, he, ht⟩), h⟩
      · obtain ⟨t, ht, rfl⟩ := List.mem_map.mp h
        exact .inl ⟨t, .inr (.inl ht), rfl⟩
      · obtain ⟨t, ht, rfl⟩ := List.mem_map.mp h
        exact .inl ⟨t, .inr (.inr (.inl ht)), rfl⟩
      · obtain ⟨t, ht, rfl⟩ := List.mem_map.mp h
        exact .inl ⟨t, .inr (.inr (.inr ht)), rfl⟩
  | simple s => simp [GraphML.membersOf, memberShapes, bodyBlocks, inlinesAll]
  | unresolved => simp [GraphML.membersOf, memberShapes, bodyBlocks, inlinesAll]

end Describe
end Verif
