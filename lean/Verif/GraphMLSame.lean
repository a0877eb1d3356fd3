/-
C108, the part on GraphML: the document written for a model does not depend on the order in which the maps of the model enumerate.
-/
import Verif.GraphMLProps
import Verif.RdfSame

namespace Verif
open Spec
namespace Spec.GraphML
open Spec.Xml

/-- Two lists of nodes and edges are the same, up to order and to the ids of the edges. -/
def SameItems (items items' : List Node) : Prop :=
  ∃ nodes edges edges' ids ids', edges.Perm edges' ∧ ids.length = edges.length ∧ ids'.length = edges'.length ∧
    items.Perm (nodes ++ List.zipWith edge ids edges) ∧ items'.Perm (nodes ++ List.zipWith edge ids' edges')

end Spec.GraphML
namespace GraphML
open Spec.Xml
open Spec.GraphML (data nodeOf edge edgesOf definedShapes edgeCount PlainVersions typeOf Items attributes SameItems)

theorem keys_perm {ts ts' : Traits} (hw : AMap.Wf ts) (hw' : AMap.Wf ts') (h : SameTraits ts ts') :
    (ts.map fun (e : ShapeID × TraitValue) => (%s"trait", %s"true", e.1)).Perm (ts'.map fun (e : ShapeID × TraitValue) => (%s"trait", %s"true", e.1)) := by
  have := flatMap_perm_of_mapRel hw hw' h (fun e => [(%s"trait", %s"true", e.1)]) (fun e => [(%s"trait", %s"true", e.1)])
    (fun k x y _ _ _ => List.Perm.refl _)
  rwa [← List.map_eq_flatMap, ← List.map_eq_flatMap] at this

theorem members_perm {b b' : ShapeKind} (hw : WfKind b) (hw' : WfKind b') (h : SameKind b b') :
    (Spec.GraphML.membersOf b).Perm (Spec.GraphML.membersOf b') := by
  have key : ∀ {ms ms' : AMap Str MemberShape}, WfMembers ms → WfMembers ms' → MapRel SameMemberShape ms ms' →
      (ms.map fun (e : Str × MemberShape) => (e.1, e.2.target)).Perm (ms'.map fun (e : Str × MemberShape) => (e.1, e.2.target)) := by
    intro ms ms' hm hm' h
    have := flatMap_perm_of_mapRel hm.nodup hm'.nodup h (fun e => [(e.1, e.2.target)]) (fun e => [(e.1, e.2.target)])
      (fun k x y _ _ h => by rw [h.2.1])
    rwa [← List.map_eq_flatMap, ← List.map_eq_flatMap] at this
  cases h with
  | list h => simp only [Spec.GraphML.membersOf, h.2.1]; exact List.Perm.refl _
  | set h => simp only [Spec.GraphML.membersOf, h.2.1]; exact List.Perm.refl _
  | map h h' => simp only [Spec.GraphML.membersOf, h.2.1, h'.2.1]; exact List.Perm.refl _
  | struct h => exact key hw hw' h
  | union h => exact key hw hw' h
  | _ => exact List.Perm.refl _

theorem edgesOf_perm {s t : TopLevelShape} (hs : WfShape s) (ht : WfShape t) (h : SameShape s t) : (edgesOf s).Perm (edgesOf t) := by
  unfold edgesOf
  rw [h.id]
  exact ((keys_perm hs.traits.nodup ht.traits.nodup h.traits).append ((members_perm hs.body ht.body h.body).map _)).map _

theorem nodeOf_same {s t : TopLevelShape} (h : SameShape s t) : nodeOf s = nodeOf t := by
  obtain ⟨i, ts, b⟩ := s
  obtain ⟨i', ts', b'⟩ := t
  have e : i = i' := h.id
  have hb : SameKind b b' := h.body
  subst e
  cases hb <;> rfl

theorem unresolved_same {s t : TopLevelShape} (h : SameShape s t) : s.isUnresolved = t.isUnresolved := by
  obtain ⟨i, ts, b⟩ := s
  obtain ⟨i', ts', b'⟩ := t
  have hb : SameKind b b' := h.body
  cases hb <;> rfl

theorem defined_eq (m : Model) {α : Type} (f : TopLevelShape → List α) :
    (definedShapes m).flatMap f = m.shapes.flatMap fun (e : ShapeID × TopLevelShape) => if e.2.isUnresolved then [] else f e.2 := by
  unfold definedShapes
  induction m.shapes with
  | nil => rfl
  | cons e l ih =>
    rw [List.map_cons, List.filter_cons, List.flatMap_cons]
    cases hu : e.2.isUnresolved with
    | true => simpa using ih
    | false => simpa using ih

theorem defined_perm {a b : Model} (ha : WfModel a) (hb : WfModel b) (h : SameModel a b) {α : Type} (f : TopLevelShape → List α)
    (hf : ∀ s t, WfShape s → WfShape t → SameShape s t → (f s).Perm (f t)) :
    ((definedShapes a).flatMap f).Perm ((definedShapes b).flatMap f) := by
  rw [defined_eq, defined_eq]
  refine flatMap_perm_of_mapRel ha.nodup hb.nodup h.shapes _ _ fun k x y hx hy hr => ?_
  change List.Perm (if x.isUnresolved then [] else f x) (if y.isUnresolved then [] else f y)
  rw [unresolved_same hr]
  split
  · exact List.Perm.refl _
  · exact hf x y (ha.shapes _ _ hx) (hb.shapes _ _ hy) hr

theorem items_same {a b : Model} (ha : WfModel a) (hb : WfModel b) (h : SameModel a b) {items : List Node} (hi : Items b items) : Items a items := by
  obtain ⟨ids, es, h1, h2, h3⟩ := hi
  refine ⟨ids, es, h1.trans (defined_perm ha hb h edgesOf fun _ _ hs ht hr => edgesOf_perm hs ht hr).symm, h2, h3.trans (List.Perm.append_right _ ?_)⟩
  have := defined_perm ha hb h (fun s => [nodeOf s]) (fun _ _ _ _ hr => by rw [nodeOf_same hr])
  rw [← List.map_eq_flatMap, ← List.map_eq_flatMap] at this
  exact this.symm

theorem items_both {m : Model} {items items' : List Node} (h : Items m items) (h' : Items m items') : SameItems items items' := by
  obtain ⟨ids, es, h1, h2, h3⟩ := h
  obtain ⟨ids', es', k1, k2, k3⟩ := h'
  exact ⟨_, es, es', ids, ids', h1.trans k1.symm, h2, k2, h3, k3⟩

theorem edgeCount_same {a b : Model} (ha : WfModel a) (hb : WfModel b) (h : SameModel a b) : edgeCount a = edgeCount b :=
  (defined_perm ha hb h edgesOf fun _ _ hs ht hr => edgesOf_perm hs ht hr).length_eq

theorem plain_same {a b : Model} (h : SameModel a b) (hp : PlainVersions a) : PlainVersions b := by
  intro id t v ht hv
  have h1 := h.shapes id
  have h2 : AMap.get b.shapes id = some t := ht
  rw [h2] at h1
  generalize hx : AMap.get a.shapes id = x at h1
  cases h1 with
  | some h3 =>
    have := h3.body
    rw [hv] at this
    generalize hy : ShapeKind.service v = y at this
    rename_i s
    generalize hz : s.body = z at this
    cases this <;> try cases hy
    have := hp id s _ hx hz
    simpa using this

/-- **C108** The GraphML documents of the same model, however its maps enumerate, are the same up to the order of the nodes and edges and
to the ids of the edges (or, in a program with overflow checks, both are refused for having too many edges). -/
theorem C108_graphml (checked : Bool) (a b : Model) (ha : WfModel a) (hb : WfModel b) (hva : ValidModel a) (hvb : ValidModel b)
    (hp : PlainVersions a) (h : SameModel a b) :
    (write checked a = .error .panic ∧ write checked b = .error .panic) ∨
    ∃ text text' tree tree' items items', write checked a = .ok text ∧ write checked b = .ok text' ∧ Document text tree ∧ Document text' tree' ∧
      withoutLayout tree = Spec.GraphML.document a.version.display items ∧ withoutLayout tree' = Spec.GraphML.document a.version.display items' ∧
      SameItems items items' := by
  have hpb := plain_same h hp
  by_cases hc : checked = true ∧ 65535 < edgeCount a
  · obtain ⟨rfl, hc⟩ := hc
    exact .inl ⟨(C73_panics a ha).1.mpr hc, (C73_panics b hb).1.mpr (by rw [← edgeCount_same ha hb h]; exact hc)⟩
  · have ok : ∀ {m : Model}, WfModel m → ValidModel m → PlainVersions m → ¬ (checked = true ∧ 65535 < edgeCount m) →
        ∃ text tree items, write checked m = .ok text ∧ Document text tree ∧ withoutLayout tree = Spec.GraphML.document m.version.display items ∧ Items m items := by
      intro m hw hv hp hc
      cases checked with
      | true =>
        obtain ⟨t, tr, i, h1, h2, h3, h4, -⟩ := C72_document true m hw hv hp (by simpa using hc)
        exact ⟨t, tr, i, h1, h2, h3, h4⟩
      | false =>
        obtain ⟨t, tr, i, h1, h2, -, h3, h4, -⟩ := C73_shared_ids m hw hv hp
        exact ⟨t, tr, i, h1, h2, h3, h4⟩
    obtain ⟨t, tr, i, h1, h2, h3, h4⟩ := ok ha hva hp hc
    obtain ⟨t', tr', i', k1, k2, k3, k4⟩ := ok hb hvb hpb (by rw [← edgeCount_same ha hb h]; exact hc)
    exact .inr ⟨t, t', tr, tr', i, i', h1, k1, h2, k2, h3, (by rw [h.version]; exact k3), items_both h4 (items_same ha hb h k4)⟩

/-- Two edges in the other order are the same items, with the ids swapped. -/
example : SameItems [edge %s"e0" (%s"a", %s"b", %s"k", %s"v"), edge %s"e1" (%s"c", %s"d", %s"k", %s"v")]
    [edge %s"e0" (%s"c", %s"d", %s"k", %s"v"), edge %s"e1" (%s"a", %s"b", %s"k", %s"v")] :=
  ⟨[], [(%s"a", %s"b", %s"k", %s"v"), (%s"c", %s"d", %s"k", %s"v")], [(%s"c", %s"d", %s"k", %s"v"), (%s"a", %s"b", %s"k", %s"v")],
    [%s"e0", %s"e1"], [%s"e0", %s"e1"], .swap _ _ _, rfl, rfl, .refl _, .refl _⟩

/-- The hypotheses of C108 hold of the example model and the same model enumerated in the opposite order. -/
example : ∃ a b : Model, a ≠ b ∧ SameModel a b ∧ WfModel a ∧ WfModel b ∧ ValidModel a ∧ ValidModel b ∧ PlainVersions a := by
  obtain ⟨h1, h2, h3⟩ := Rdf.turned_ok exJsonModel_ok.1 exJsonModel_ok.2.1
  refine ⟨exJsonModel, turned exJsonModel, ?_, h1, exJsonModel_ok.1, h2, exJsonModel_ok.2.1, h3, exJsonModel_plain⟩
  intro h
  have := congrArg (fun m => (m.shapes.map (·.1)).head?) h
  revert this
  decide

end GraphML
end Verif
