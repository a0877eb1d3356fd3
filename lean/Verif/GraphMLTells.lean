/-
What GraphML documents tell about models, exactly: which models have the same document.
-/
import Verif.GraphMLProps

namespace Verif

namespace Spec.GraphML

/-- The two shapes have the same id, the same type, the same version if they are services, traits of the same ids, and members of the
same names with the same targets, all in the same order. -/
structure AlikeShape (s s' : TopLevelShape) : Prop where
  id : s.id = s'.id
  type : typeOf s.body = typeOf s'.body
  version : ∀ v v', s.body = .service v → s'.body = .service v' → v.version = v'.version
  traits : s.traits.map (·.1) = s'.traits.map (·.1)
  members : membersOf s.body = membersOf s'.body

/-- The shapes the models define are alike, one by one (in the order in which they are enumerated). -/
def AlikeModel (m m' : Model) : Prop := List.Forall₂ AlikeShape (definedShapes m) (definedShapes m')

end Spec.GraphML

namespace GraphML
open Spec Spec.GraphML Spec.Xml

/-- The version of a service. -/
def versionOf : ShapeKind → Option Str
  | .service v => some v.version
  | _ => none

theorem versions_alike {b b' : ShapeKind} (ht : typeOf b = typeOf b') :
    versionOf b = versionOf b' ↔ ∀ v v', b = .service v → b' = .service v' → v.version = v'.version := by
  constructor
  · rintro h v v' rfl rfl
    exact Option.some.inj h
  · intro h
    have hs : ∀ x : ShapeKind, typeOf x = %s"service" ↔ ∃ v, x = .service v := by
      intro x
      cases x with
      | simple s => cases s <;> simp [typeOf, Simple.display]
      | _ => simp [typeOf]
    by_cases hb : ∃ v, b = .service v
    · obtain ⟨v, rfl⟩ := hb
      obtain ⟨v', rfl⟩ := (hs b').mp (ht ▸ rfl)
      exact congrArg some (h v v' rfl rfl)
    · have hb' : ¬ ∃ v, b' = .service v := fun x => hb ((hs b).mp (ht.trans ((hs b').mpr x)))
      have none : ∀ x : ShapeKind, (¬ ∃ v, x = .service v) → versionOf x = none := by
        intro x hx
        cases x with
        | service v => exact absurd ⟨v, rfl⟩ hx
        | _ => rfl
      rw [none _ hb, none _ hb']

/-- What is written for a shape, if it is not a placeholder. -/
def group (s : TopLevelShape) : List Item :=
  .node s.id.display (typeOf s.body) (versionOf s.body) :: (edgesOf s).map .edge

theorem itemsOf_group {s : TopLevelShape} (h : WfKind s.body) : itemsOf s = if s.isUnresolved then [] else group s := by
  unfold itemsOf group edgesOf Spec.GraphML.referencesOf
  rw [members_eq h]
  cases s.isUnresolved with
  | true => rfl
  | false =>
    simp only [Bool.false_eq_true, if_false, List.map_append, List.map_map, Function.comp_def]
    cases s.body <;> rfl

theorem items_groups (l : List TopLevelShape) (h : ∀ s ∈ l, WfKind s.body) :
    l.flatMap itemsOf = (l.filter fun s => !s.isUnresolved).flatMap group := by
  induction l with
  | nil => rfl
  | cons s l ih =>
    rw [List.flatMap_cons, ih fun x hx => h x (List.mem_cons_of_mem _ hx), itemsOf_group (h s List.mem_cons_self), List.filter_cons]
    cases s.isUnresolved <;> rfl

theorem items_defined {m : Model} (hw : WfModel m) : m.shapesList.flatMap itemsOf = (definedShapes m).flatMap group :=
  items_groups _ fun s hs => (hw.shapes _ s ((mem_shapes hw).mp hs)).body

theorem groups_head (l : List TopLevelShape) (e : Str × Str × Str × Str) (t : List Item) : l.flatMap group ≠ .edge e :: t := by
  cases l <;> simp [group]

/-- Edges are followed by a node, or by nothing. -/
theorem edges_split {a b : List (Str × Str × Str × Str)} {l l' : List TopLevelShape}
    (h : a.map Item.edge ++ l.flatMap group = b.map Item.edge ++ l'.flatMap group) : a = b ∧ l.flatMap group = l'.flatMap group := by
  induction a generalizing b with
  | nil =>
    cases b with
    | nil => exact ⟨rfl, h⟩
    | cons y b => exact absurd h (groups_head _ _ _)
  | cons x a ih =>
    cases b with
    | nil => exact absurd h.symm (groups_head _ _ _)
    | cons y b =>
      simp only [List.map_cons, List.cons_append] at h
      injection h with h1 h2
      injection h1 with h1
      obtain ⟨h3, h4⟩ := ih h2
      exact ⟨by rw [h1, h3], h4⟩

theorem groups_split {l l' : List TopLevelShape} (h : l.flatMap group = l'.flatMap group) :
    List.Forall₂ (fun s s' => s.id.display = s'.id.display ∧ typeOf s.body = typeOf s'.body ∧ versionOf s.body = versionOf s'.body ∧
      edgesOf s = edgesOf s') l l' := by
  induction l generalizing l' with
  | nil =>
    cases l' with
    | nil => exact .nil
    | cons s' l' => simp [group] at h
  | cons s l ih =>
    cases l' with
    | nil => simp [group] at h
    | cons s' l' =>
      rw [List.flatMap_cons, List.flatMap_cons] at h
      unfold group at h
      simp only [List.cons_append] at h
      injection h with h1 h2
      injection h1 with h1 h3 h4
      obtain ⟨h5, h6⟩ := edges_split h2
      exact .cons ⟨h1, h3, h4, h5⟩ (ih h6)

theorem groups_same {l l' : List TopLevelShape} (h : List.Forall₂ (fun s s' => group s = group s') l l') : l.flatMap group = l'.flatMap group := by
  induction h with
  | nil => rfl
  | cons h _ ih => rw [List.flatMap_cons, List.flatMap_cons, h, ih]

theorem text_inj {v v' : Str} (h : Spec.GraphML.text v = Spec.GraphML.text v') : v = v' := by
  cases v <;> cases v' <;> simp_all [Spec.GraphML.text]

theorem data_inj {k k' v v' : Str} (h : Spec.GraphML.data k v = Spec.GraphML.data k' v') : k = k' ∧ v = v' := by
  unfold Spec.GraphML.data at h
  injection h with _ h1 h2
  injection h1 with h1
  injection h1 with _ h1
  exact ⟨h1, text_inj h2⟩

theorem cooked_inj {n : Nat} {a b : List Item} (h : cooked n a = cooked n b) : a = b := by
  induction a generalizing n b with
  | nil =>
    cases b with
    | nil => rfl
    | cons y b => cases y <;> simp [cooked] at h
  | cons x a ih =>
    cases b with
    | nil => cases x <;> simp [cooked] at h
    | cons y b =>
      cases x with
      | node id type v =>
        cases y with
        | node id' type' v' =>
          simp only [cooked, cookedOne] at h
          injection h with h1 h2
          injection h1 with _ h1 h3
          injection h1 with h1
          injection h1 with _ h1
          injection h3 with h3 h4
          have h3 := (data_inj h3).2
          have h4 : v = v' := by
            cases v <;> cases v' <;> simp at h4 ⊢
            exact (data_inj h4).2
          rw [h1, h3, h4, ih h2]
        | edge e =>
          simp only [cooked, cookedOne, edge] at h
          injection h with h1 _
          injection h1 with h1 _ _
          exact absurd h1 (by decide)
      | edge e =>
        cases y with
        | node id' type' v' =>
          simp only [cooked, cookedOne, edge] at h
          injection h with h1 _
          injection h1 with h1 _ _
          exact absurd h1 (by decide)
        | edge e' =>
          simp only [cooked, cookedOne, edge] at h
          injection h with h1 h2
          injection h1 with _ h1 h3
          injection h1 with _ h1
          injection h1 with h4 h1
          injection h1 with h5 _
          injection h4 with _ h4
          injection h5 with _ h5
          injection h3 with h3 _
          obtain ⟨h6, h7⟩ := data_inj h3
          obtain ⟨e1, e2, e3, e4⟩ := e
          obtain ⟨f1, f2, f3, f4⟩ := e'
          simp only at h4 h5 h6 h7
          rw [h4, h5, h6, h7, ih h2]

theorem written {c : Bool} {m : Model} {text : Str} (h : write c m = .ok text) :
    ¬ (c = true ∧ 65535 < edges (m.shapesList.flatMap itemsOf)) := by
  rintro ⟨rfl, hc⟩
  rw [write_panic hc] at h; cases h

theorem map_inj {α β : Type} {f : α → β} {l l' : List α} (hf : ∀ a ∈ l, ∀ b ∈ l', f a = f b → a = b) (h : l.map f = l'.map f) : l = l' := by
  induction l generalizing l' with
  | nil => cases l' with
    | nil => rfl
    | cons => cases h
  | cons a l ih =>
    cases l' with
    | nil => cases h
    | cons b l' =>
      simp only [List.map_cons] at h
      injection h with h1 h2
      rw [hf a List.mem_cons_self b List.mem_cons_self h1,
        ih (fun x hx y hy => hf x (List.mem_cons_of_mem _ hx) y (List.mem_cons_of_mem _ hy)) h2]

/-- The references, taken apart. -/
theorem references_iff (s s' : TopLevelShape) : Spec.GraphML.referencesOf s = Spec.GraphML.referencesOf s' ↔
    s.traits.map (·.1) = s'.traits.map (·.1) ∧ Spec.GraphML.membersOf s.body = Spec.GraphML.membersOf s'.body := by
  unfold Spec.GraphML.referencesOf
  constructor
  · intro h
    have hne : (%s"trait" == %s"member") = false := by decide
    constructor
    · have h1 := congrArg (fun l => (l.filter fun r => r.1 == %s"trait").map (·.2.2)) h
      simpa [List.filter_append, List.filter_map, Function.comp_def, List.map_map] using h1
    · have h1 := congrArg (fun l => (l.filter fun r => r.1 == %s"member").map (·.2)) h
      simpa [List.filter_append, List.filter_map, Function.comp_def, List.map_map] using h1
  · rintro ⟨h1, h2⟩
    have h3 : ∀ t : Traits, t.map (fun (e : ShapeID × TraitValue) => (%s"trait", %s"true", e.1)) =
        (t.map (·.1)).map fun i => (%s"trait", %s"true", i) := by intro t; rw [List.map_map]; rfl
    rw [h2, h3, h3, h1]

/-- **C72** What a GraphML document tells, exactly: two models have the same document, to the last character, just if the shapes they define
are alike one by one, in the order in which they are enumerated: the same ids, the same types, the same versions of services, the same ids
of traits, the same names and targets of members. Nothing else can be told from the document. -/
theorem C72_tells (checked checked' : Bool) (m m' : Model) (hw : WfModel m) (hw' : WfModel m') (hv : ValidModel m) (hv' : ValidModel m')
    (hp : PlainVersions m) (hp' : PlainVersions m') (text text' : Str) (h : write checked m = .ok text) (h' : write checked' m' = .ok text') :
    text = text' ↔ AlikeModel m m' := by
  have e1 := h
  have e2 := h'
  rw [write_ok (written h)] at e1
  rw [write_ok (written h')] at e2
  have e1 := Except.ok.inj e1
  have e2 := Except.ok.inj e2
  have hver : m.version = m'.version := by cases m.version; cases m'.version; rfl
  have hhead : header m = header m' := by unfold header; rw [hver]
  constructor
  · rintro rfl
    have d1 := document_text (m := m) (items_ok hw hv hp)
    have d2 := document_text (m := m') (items_ok hw' hv' hp')
    rw [e1] at d1
    rw [e2] at d2
    have hr := congrArg withoutLayout (XmlLemmas.document_unique d1 d2)
    rw [withoutLayout_root, withoutLayout_root] at hr
    have hi := cooked_inj (document_items hr)
    rw [items_defined hw, items_defined hw'] at hi
    have hall := groups_split hi
    have hin : ∀ s ∈ definedShapes m, s ∈ definedShapes m := fun _ hs => hs
    have hin' : ∀ s ∈ definedShapes m', s ∈ definedShapes m' := fun _ hs => hs
    have key : ∀ s s', s ∈ definedShapes m → s' ∈ definedShapes m' → (s.id.display = s'.id.display ∧ typeOf s.body = typeOf s'.body ∧
        versionOf s.body = versionOf s'.body ∧ edgesOf s = edgesOf s') → AlikeShape s s' := by
      rintro s s' hs hs' ⟨k1, k2, k3, k4⟩
      have hd := ((defined_iff hw).mp hs).1
      have hd' := ((defined_iff hw').mp hs').1
      have r1 := valid_refs (hw.shapes _ _ hd) (hv _ _ hd).2
      have r2 := valid_refs (hw'.shapes _ _ hd') (hv' _ _ hd').2
      have hrefs : Spec.GraphML.referencesOf s = Spec.GraphML.referencesOf s' := by
        have := congrArg (List.map refOf) k4
        rw [refOf_edges r1, refOf_edges r2] at this
        refine map_inj (fun a _ b _ hab => ?_) this
        obtain ⟨a1, a2, a3⟩ := a
        obtain ⟨b1, b2, b3⟩ := b
        simp only [Prod.mk.injEq, Option.some.injEq] at hab ⊢
        exact hab
      obtain ⟨t1, t2⟩ := (references_iff s s').mp hrefs
      exact ⟨C03_display_injective _ _ (hv _ _ hd).1 (hv' _ _ hd').1 k1, k2, (versions_alike k2).mp k3, t1, t2⟩
    unfold AlikeModel
    clear hi hr d1 d2 e1 e2 h h'
    revert hall hin hin'
    generalize definedShapes m = l at key ⊢
    generalize definedShapes m' = l' at key ⊢
    have : ∀ a b : List TopLevelShape, List.Forall₂ (fun s s' => s.id.display = s'.id.display ∧ typeOf s.body = typeOf s'.body ∧
        versionOf s.body = versionOf s'.body ∧ edgesOf s = edgesOf s') a b → (∀ s ∈ a, s ∈ l) → (∀ s ∈ b, s ∈ l') → List.Forall₂ AlikeShape a b := by
      intro a b hab
      induction hab with
      | nil => exact fun _ _ => .nil
      | cons x _ ih =>
        intro i1 i2
        exact .cons (key _ _ (i1 _ List.mem_cons_self) (i2 _ List.mem_cons_self) x)
          (ih (fun s hs => i1 s (List.mem_cons_of_mem _ hs)) (fun s hs => i2 s (List.mem_cons_of_mem _ hs)))
    exact fun hall hin hin' => this _ _ hall hin hin'
  · intro ha
    have hg : (definedShapes m).flatMap group = (definedShapes m').flatMap group := by
      refine groups_same (List.Forall₂.imp ?_ ha)
      rintro s s' ⟨k1, k2, k3, k4, k5⟩
      unfold group edgesOf
      rw [(references_iff s s').mpr ⟨k4, k5⟩, k1, k2, (versions_alike k2).mpr k3]
    rw [← e1, ← e2, items_defined hw, items_defined hw', hg, hhead]

/-- C72 tells: the example model and the same without its metadata have the same document; services with one and with two operations do
not. -/
theorem C72_tells_example :
    (exJsonModel ≠ Rdf.exBare ∧ AlikeModel exJsonModel Rdf.exBare ∧
      ∃ text, write true exJsonModel = .ok text ∧ write true Rdf.exBare = .ok text) ∧
    (¬ AlikeModel (exMany 1) (exMany 2) ∧
      ∃ text text', write true (exMany 1) = .ok text ∧ write true (exMany 2) = .ok text' ∧ text ≠ text') := by
  refine ⟨⟨fun h => by have := congrArg (fun m => m.metadata.length) h; revert this; decide, ?_,
    _, write_ok (by decide), (C75_metadata true exJsonModel []).trans (write_ok (by decide))⟩, ?_⟩
  · have : ∀ l : List TopLevelShape, List.Forall₂ AlikeShape l l := by
      intro l
      induction l with
      | nil => exact .nil
      | cons s l ih => exact .cons ⟨rfl, rfl, fun v v' h h' => by rw [h] at h'; cases h'; rfl, rfl, rfl⟩ ih
    exact this _
  · have hn : ¬ AlikeModel (exMany 1) (exMany 2) := by
      intro h
      cases h with
      | cons h _ =>
        have := congrArg List.length h.members
        revert this
        decide
    refine ⟨hn, _, _, write_ok (by decide), write_ok (by decide), fun h => hn ?_⟩
    obtain ⟨a1, a2, a3, -⟩ := exMany_ok 1
    obtain ⟨b1, b2, b3, -⟩ := exMany_ok 2
    exact (C72_tells true true _ _ a1 b1 a2 b2 a3 b3 _ _ (write_ok (by decide)) (write_ok (by decide))).mp h

end GraphML
end Verif
