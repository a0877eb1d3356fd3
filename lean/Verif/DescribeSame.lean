/-
C108, the part on the diagrams and documents about models: what they say does not depend on the order in which the maps of the model enumerate.
-/
import Verif.DescribeMore
import Verif.PlantUmlProps
import Verif.GraphMLSame
import Verif.IdlSame

namespace Verif
open Spec

section
variable {a b : Model}

theorem Spec.SameModel.defines (h : SameModel a b) {id : ShapeID} {t : TopLevelShape} (ht : DefinesShape b id t) : ∃ s, DefinesShape a id s ∧ SameShape s t := by
  obtain ⟨s, h1, h2⟩ := h.shapeAt ht.1
  exact ⟨s, ⟨h1, fun hu => ht.2 ((sameKind_unresolved h2.body).mp hu)⟩, h2⟩

theorem Spec.SameModel.namespaceOf (h : SameModel a b) {ns : Str} (hn : Uml.IsNamespaceOf b ns) : Uml.IsNamespaceOf a ns := by
  obtain ⟨id, t, ht, e⟩ := hn
  obtain ⟨s, hs, -⟩ := h.defines ht
  exact ⟨id, s, hs, e⟩

theorem Spec.SameModel.namespaces (h : SameModel a b) (ha : WfModel a) (hb : WfModel b) : a.namespaces.Perm b.namespaces := by
  refine (List.perm_ext_iff_of_nodup (PlantUml.nodup_eraseDups _ _ (Nat.le_refl _)) (PlantUml.nodup_eraseDups _ _ (Nat.le_refl _))).mpr fun ns => ?_
  refine (PlantUml.mem_namespaces ha).trans (Iff.trans ?_ (PlantUml.mem_namespaces hb).symm)
  exact ⟨h.symm.namespaceOf, h.namespaceOf⟩

end

namespace PlantUml
open Spec.Uml

theorem operationsOf_same {k k' : ShapeKind} (h : SameKind k k') : operationsOf k = operationsOf k' := by
  cases h <;> rfl

theorem missing_same {a b : Model} (h : SameModel a b) (hm : ∃ id s, b.shape id = some s ∧ ∃ o ∈ operationsOf s.body, ∀ op, ¬ IsOperation b o op) :
    ∃ id s, a.shape id = some s ∧ ∃ o ∈ operationsOf s.body, ∀ op, ¬ IsOperation a o op := by
  obtain ⟨id, t, ht, o, ho, hn⟩ := hm
  obtain ⟨s, hs, hst⟩ := h.shapeAt ht
  refine ⟨id, s, hs, o, by rw [operationsOf_same hst.body]; exact ho, ?_⟩
  rintro op ⟨x, hx, hb⟩
  obtain ⟨y, hy, hxy⟩ := h.symm.shapeAt hx
  have := hxy.body
  rw [hb] at this
  generalize hk : y.body = k at this
  cases this
  exact hn op ⟨y, hy, hk⟩

/-- **C108** A diagram is drawn, or not, however the maps of the model enumerate; and it has the same packages. -/
theorem C108_plantuml (expand : Bool) (f : Fmt) (a b : Model) (ha : WfModel a) (hb : WfModel b) (h : SameModel a b) :
    (write expand f a = .error .panic ∧ write expand f b = .error .panic) ∨
    ∃ (text text' : Str) (nss nss' : List Str) (draw draw' : TopLevelShape → Str), write expand f a = .ok text ∧ write expand f b = .ok text' ∧ nss.Perm nss' ∧
      text = document expand (nss.map fun ns => package expand ns (a.shapes.map fun e => draw e.2)) ∧
      text' = document expand (nss'.map fun ns => package expand ns (b.shapes.map fun e => draw' e.2)) ∧
      ∀ id s t, a.shape id = some s → b.shape id = some t → SameShape s t ∧ Draws expand f a s (draw s) ∧ Draws expand f b t (draw' t) := by
  classical
  by_cases hp : write expand f a = .error .panic
  · exact .inl ⟨hp, (C76_panics_iff expand f b hb).1.mpr (missing_same h.symm ((C76_panics_iff expand f a ha).1.mp hp))⟩
  · have hp' : write expand f b ≠ .error .panic := fun hp' => hp ((C76_panics_iff expand f a ha).1.mpr (missing_same h ((C76_panics_iff expand f b hb).1.mp hp')))
    obtain ⟨text, ht⟩ := (C76_panics_iff expand f a ha).2 hp
    obtain ⟨text', ht'⟩ := (C76_panics_iff expand f b hb).2 hp'
    obtain ⟨nss, draw, h1, h2, h3, h4⟩ := C77_packages expand f a ha text ht
    obtain ⟨nss', draw', k1, k2, k3, k4⟩ := C77_packages expand f b hb text' ht'
    refine .inr ⟨text, text', nss, nss', draw, draw', ht, ht', ?_, h1, k1, fun id s t hs hx => ⟨?_, h4 id s hs, k4 id t hx⟩⟩
    · exact (List.perm_ext_iff_of_nodup h2 k2).mpr fun ns => by rw [h3, k3]; exact ⟨h.symm.namespaceOf, h.namespaceOf⟩
    · obtain ⟨s', hs', e⟩ := h.shapeAt hx
      rw [hs] at hs'; cases hs'; exact e

end PlantUml

namespace Describe
open Spec.Doc

theorem bad_same {ts ts' : Traits} (h : SameTraits ts ts') (hb : BadDocumentation ts') : BadDocumentation ts := by
  obtain ⟨v, hv, hn⟩ := hb
  have h1 := h ⟨%s"smithy.api", %s"documentation", none⟩
  rw [hv] at h1
  generalize hx : AMap.get ts ⟨%s"smithy.api", %s"documentation", none⟩ = x at h1
  cases h1 with
  | some h1 =>
    cases h1 with
    | some h1 =>
      refine ⟨_, hx, fun s e => ?_⟩
      subst e
      cases h1
      exact hn s rfl

theorem memberShapes_same {k k' : ShapeKind} (hw' : WfKind k') (h : SameKind k k') {y : MemberShape} (hy : y ∈ memberShapes k') :
    ∃ x ∈ memberShapes k, SameMemberShape x y := by
  have key : ∀ {ms ms' : AMap Str MemberShape}, WfMembers ms' → MapRel SameMemberShape ms ms' → y ∈ ms'.map (·.2) → ∃ x ∈ ms.map (·.2), SameMemberShape x y := by
    intro ms ms' hw h hy
    obtain ⟨⟨k, z⟩, he, e⟩ := List.mem_map.mp hy
    dsimp only at e
    subst e
    have h1 := h k
    rw [AMap.get_of_mem hw.nodup he] at h1
    generalize hx : AMap.get ms k = x at h1
    cases h1 with
    | some h1 => exact ⟨_, List.mem_map.mpr ⟨_, AMap.mem_of_get hx, rfl⟩, h1⟩
  cases h with
  | list h => exact ⟨_, List.mem_singleton.mpr rfl, by rw [List.mem_singleton.mp hy]; exact h⟩
  | set h => exact ⟨_, List.mem_singleton.mpr rfl, by rw [List.mem_singleton.mp hy]; exact h⟩
  | @map k v k' v' h h' =>
    rcases List.mem_cons.mp hy with e | e
    · exact ⟨k, by simp [memberShapes], e ▸ h⟩
    · exact ⟨v, by simp [memberShapes], (List.mem_singleton.mp e) ▸ h'⟩
  | struct h => exact key hw' h hy
  | union h => exact key hw' h hy
  | _ => cases hy

theorem undocumentable_same {a b : Model} (hb : WfModel b) (h : SameModel a b) (hu : Undocumentable b) : Undocumentable a := by
  obtain ⟨id, t, ht, hbad⟩ := hu
  obtain ⟨s, hs, hst⟩ := h.defines ht
  refine ⟨id, s, hs, hbad.imp (bad_same hst.traits) ?_⟩
  rintro ⟨y, hy, hyb⟩
  obtain ⟨x, hx, hxy⟩ := memberShapes_same (hb.shapes _ _ ht.1).body hst.body hy
  exact ⟨x, hx, bad_same hxy.2.2 hyb⟩

theorem titleOf_same {s t : TopLevelShape} (h : SameShape s t) : titleOf s = titleOf t := by
  have hb := h.body
  have e : GraphML.typeOf s.body = GraphML.typeOf t.body := by
    generalize s.body = x at hb
    generalize t.body = y at hb
    cases hb <;> rfl
  unfold titleOf
  rw [h.id, e]

theorem titles_perm {a b : Model} (ha : WfModel a) (hb : WfModel b) (h : SameModel a b) (ns : Str) :
    ((shapesIn a ns).map titleOf).Perm ((shapesIn b ns).map titleOf) := by
  have e : ∀ id, (a.shape id).map titleOf = (b.shape id).map titleOf := by
    intro id
    have h1 : OptRel SameShape (a.shape id) (b.shape id) := h.shapes id
    generalize a.shape id = x at h1
    generalize b.shape id = y at h1
    cases h1 with
    | none => rfl
    | some h1 => exact congrArg some (titleOf_same h1)
  unfold shapesIn
  rw [List.map_filterMap, List.map_filterMap, funext e]
  refine List.Perm.filterMap _ ((List.mergeSort_perm _ _).trans (List.Perm.trans ?_ (List.mergeSort_perm _ _).symm))
  refine List.Perm.filter _ ((List.perm_ext_iff_of_nodup (shapeNames_nodup ha) (shapeNames_nodup hb)).mpr fun id => ?_)
  rw [mem_shapeNames ha, mem_shapeNames hb]
  constructor
  · rintro ⟨s, hs⟩
    obtain ⟨t, ht, -⟩ := h.symm.defines hs
    exact ⟨t, ht⟩
  · rintro ⟨s, hs⟩
    obtain ⟨t, ht, -⟩ := h.defines hs
    exact ⟨t, ht⟩

theorem flatMap_perm' {α β : Type} {l l' : List α} (h : l.Perm l') {g g' : α → List β} (hg : ∀ x, (g x).Perm (g' x)) : (l.flatMap g).Perm (l'.flatMap g') :=
  (h.flatMap_right g).trans (List.Perm.flatMap_left l' fun x _ => hg x)

/-- **C108** The document about a model is made, or not, however the maps of the model enumerate; it has the same titles and links. -/
theorem C108_documents (f : Fmt) (a b : Model) (ha : WfModel a) (hb : WfModel b) (h : SameModel a b) :
    (describeModel f a = .error .panic ∧ describeModel f b = .error .panic) ∨
    ∃ d d', describeModel f a = .ok d ∧ describeModel f b = .ok d' ∧ (titles d.blocks).Perm (titles d'.blocks) ∧
      ∀ l, LinksTo d.blocks l ↔ LinksTo d'.blocks l := by
  classical
  by_cases hu : Undocumentable a
  · exact .inl ⟨(C80_panics_iff f a ha).1.mpr hu, (C80_panics_iff f b hb).1.mpr (undocumentable_same ha h.symm hu)⟩
  · have hu' : ¬ Undocumentable b := fun hu' => hu (undocumentable_same hb h hu')
    obtain ⟨d, hd⟩ := (C80_panics_iff f a ha).2 hu
    obtain ⟨d', hd'⟩ := (C80_panics_iff f b hb).2 hu'
    refine .inr ⟨d, d', hd, hd', ?_, fun l => ?_⟩
    · rw [describe_ok ha hd, describe_ok hb hd', titles_model f ha, titles_model f hb, List.map_flatMap, List.map_flatMap]
      exact flatMap_perm' (h.namespaces ha hb) (titles_perm ha hb h)
    · rw [C83_links f a ha d hd, C83_links f b hb d' hd']
      have half : ∀ {m n : Model}, SameModel m n → WfModel m → WfModel n → (∃ id s t, DefinesShape n id s ∧ t ∈ references s ∧ lower id.ns = lower t.ns ∧ l = labelOf t) →
          ∃ id s t, DefinesShape m id s ∧ t ∈ references s ∧ lower id.ns = lower t.ns ∧ l = labelOf t := by
        rintro m n h hm hn ⟨id, s, t, hs, ht, e1, e2⟩
        obtain ⟨x, hx, hxs⟩ := h.defines hs
        refine ⟨id, x, t, hx, ?_, e1, e2⟩
        exact ((GraphML.members_perm (hm.shapes _ _ hx.1).body (hn.shapes _ _ hs.1).body hxs.body).map (·.2)).mem_iff.mpr ht
      exact ⟨half h.symm hb ha, half h ha hb⟩

end Describe

/-- The hypotheses hold of the example model enumerated in both orders, which has a document and a diagram. -/
example (f : Fmt) : SameModel exIdl (turned exIdl) ∧ WfModel exIdl ∧ WfModel (turned exIdl) ∧ exIdl ≠ turned exIdl ∧
    ∃ d, Describe.describeModel f exIdl = .ok d := by
  obtain ⟨h1, h2, -⟩ := Rdf.turned_same exIdl_wf
  refine ⟨h1, exIdl_wf, h2, fun h => ?_, (Describe.C80_panics_iff f _ exIdl_wf).2 ?_⟩
  · have := congrArg (fun m => (m.shapes.map (·.1)).head?) h
    revert this
    decide
  · rintro ⟨id, s, hs, hb⟩
    have := exIdl_mem hs.1
    simp only [exIdl, List.mem_cons, List.not_mem_nil, or_false, Prod.mk.injEq] at this
    rcases this with ⟨rfl, rfl⟩ | ⟨rfl, rfl⟩ | ⟨rfl, rfl⟩ | ⟨rfl, rfl⟩
    · rcases hb with ⟨v, hv, hn⟩ | ⟨x, hx, v, hv, hn⟩
      · simp [AMap.get_cons] at hv
        exact hn _ hv.symm
      · simp [Spec.Doc.memberShapes] at hx
        rcases hx with rfl | rfl <;> simp [AMap.get_cons, AMap.get_nil] at hv
    · exact hs.2 rfl
    · rcases hb with ⟨v, hv, hn⟩ | ⟨x, hx, -⟩
      · cases hv
      · cases hx
    · rcases hb with ⟨v, hv, hn⟩ | ⟨x, hx, v, hv, hn⟩
      · cases hv
      · rw [List.mem_singleton.mp hx] at hv; cases hv

end Verif
