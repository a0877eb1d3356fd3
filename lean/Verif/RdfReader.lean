/-
Properties C70 (what RDF graphs lose) and C71 (reading RDF graphs back), with examples for C68 to C71.
-/
import Verif.RdfContent
import Verif.JsonProps

namespace Verif
open Spec
namespace Rdf
open Emit

/-! ### C70 -/

/-- **C70** Metadata is not in the graph: models that only differ in metadata have the same graph. -/
theorem C70_metadata (m : Model) (x : AMap Str Value) (modelIri : Option Iri) :
    modelToRdf { m with metadata := x } modelIri = modelToRdf m modelIri := by
  rw [modelToRdf_eq, modelToRdf_eq]; rfl

/-- **C70** Placeholders, and the traits applied to them, are not in the graph. -/
theorem C70_placeholders (m : Model) (modelIri : Option Iri) :
    modelToRdf { m with shapes := m.shapes.filter fun e => !e.2.isUnresolved } modelIri = modelToRdf m modelIri := by
  rw [modelToRdf_eq, modelToRdf_eq]
  refine congrArg _ (congrArg _ ?_)
  have : ∀ (root : Node) (l : AMap ShapeID TopLevelShape),
      each (shapeEmit root) ((l.filter fun e => !e.2.isUnresolved).map (·.2)) = each (shapeEmit root) (l.map (·.2)) := by
    intro root l
    induction l with
    | nil => rfl
    | cons e l ih =>
      cases hu : e.2.isUnresolved with
      | false =>
        simp only [hu, List.filter_cons, Bool.not_false, if_true, List.map_cons, each, ih]
      | true =>
        simp only [hu, List.filter_cons, Bool.not_true, List.map_cons, each, Bool.false_eq_true, if_false]
        have hb : shapeEmit root e.2 = skip := by
          unfold TopLevelShape.isUnresolved ShapeKind.isUnresolved at hu
          unfold shapeEmit
          split at hu
          · next h => rw [h]
          · cases hu
        rw [ih, hb]
        rfl
  unfold Model.shapesList AMap.values
  simp only [this]

/-- A service with other renamed shapes. -/
def _root_.Verif.Spec.withRenames (r : ShapeID → AMap ShapeID Str) (s : TopLevelShape) : TopLevelShape :=
  match s.body with
  | .service b => { s with body := .service { b with renames := r s.id } }
  | _ => s

/-- **C70** The renamed shapes of services are not in the graph: changing them in every service changes nothing. -/
theorem C70_renames (m : Model) (r : ShapeID → AMap ShapeID Str) (modelIri : Option Iri) :
    modelToRdf { m with shapes := m.shapes.map fun e => (e.1, withRenames r e.2) } modelIri = modelToRdf m modelIri := by
  rw [modelToRdf_eq, modelToRdf_eq]
  refine congrArg _ (congrArg _ ?_)
  have h1 : ∀ root s, shapeEmit root (withRenames r s) = shapeEmit root s := by
    intro root s
    obtain ⟨id, ts, b⟩ := s
    cases b <;> rfl
  have : ∀ (root : Node) (l : AMap ShapeID TopLevelShape),
      each (shapeEmit root) ((l.map fun e => (e.1, withRenames r e.2)).map (·.2)) = each (shapeEmit root) (l.map (·.2)) := by
    intro root l
    induction l with
    | nil => rfl
    | cons e l ih => simp only [List.map_cons, each, h1, ih]
  unfold Model.shapesList AMap.values
  simp only [this]

/-- A model with one string shape, with one trait whose value is an array of strings. -/
def _root_.Verif.Spec.withArray (id t : ShapeID) (l : List Str) : Model :=
  ⟨.v10, [], [(id, ⟨id, [(t, some (.array (l.map .string)))], .simple .string⟩)]⟩

theorem items_strings (b : Node) (l : List Str) (n : Nat) :
    fromItems b (l.map .string) n = (l.map fun s => ⟨b, rdf %s"li", text s⟩, n) := by
  induction l with
  | nil => rw [List.map_nil, fromItems]; rfl
  | cons s l ih =>
    rw [List.map_cons, fromItems]
    simp only [Emit.seq, fromValue, Emit.insert, ih]
    rfl

/-- **C70** The order and the repetitions of the elements of an array are lost: two arrays of strings with the same elements
give the same graph. -/
theorem C70_arrays (id t : ShapeID) (l l' : List Str) (h : SameElements l l') (modelIri : Option Iri) :
    ∃ g g', modelToRdf (withArray id t l) modelIri = .ok g ∧ modelToRdf (withArray id t l') modelIri = .ok g' ∧
      SameGraph g g' := by
  refine ⟨_, _, modelToRdf_eq _ _, modelToRdf_eq _ _, fun n => n, fun _ _ h => h, fun st => ?_⟩
  have hrel : ∀ g : Graph, relabel (fun n => n) g = g := by
    intro g
    unfold relabel
    have : ∀ st : Statement, (⟨relabelNode (fun n => n) st.subj, st.pred, relabelObj (fun n => n) st.obj⟩ : Statement) = st := by
      rintro ⟨s, p, o⟩
      have hn : ∀ n : Node, relabelNode (fun n => n) n = n := by intro n; cases n <;> rfl
      cases o <;> simp [relabelObj, hn]
    simp [this]
  rw [hrel]
  simp only [withArray, Model.shapesList, AMap.values, List.map_cons, List.map_nil, each, shapeEmit, declare, addShape, Emit.insert,
    Emit.seq, fromTraits, fromTrait, Emit.fresh, ifSome, fromValue, items_strings, skip, List.mem_append, List.mem_cons, List.mem_map, List.append_nil,
    List.not_mem_nil, or_false]
  have : ∀ P : Str → Prop, (∃ a ∈ l, P a) ↔ (∃ a ∈ l', P a) := fun P => exists_congr fun a => and_congr_left fun _ => h a
  rw [this]

/-! ### C71 -/

theorem eraseDups_one {α : Type} [BEq α] [LawfulBEq α] {l : List α} {x : α} (h : ∀ y, y ∈ l ↔ y = x) : l.eraseDups = [x] := by
  cases l with
  | nil => exact absurd ((h x).mpr rfl) (by simp)
  | cons a l =>
    have ha : a = x := (h a).mp List.mem_cons_self
    subst ha
    rw [List.eraseDups_cons]
    have : l.filter (fun b => !b == a) = [] := by
      rw [List.filter_eq_nil_iff]
      intro b hb
      have := (h b).mp (List.mem_cons_of_mem _ hb)
      simp [this]
    rw [this]; rfl

theorem mem_objects {g : Graph} {s : Node} {p : Iri} {o : Obj} :
    o ∈ ((g.filter fun st => decide (st.subj = s ∧ st.pred = p)).map (·.obj)) ↔ ⟨s, p, o⟩ ∈ g := by
  rw [List.mem_map]
  constructor
  · rintro ⟨⟨s', p', o'⟩, h, rfl⟩
    rw [List.mem_filter] at h
    obtain ⟨h1, h2⟩ := h
    simp only [decide_eq_true_eq] at h2
    obtain ⟨rfl, rfl⟩ := h2
    exact h1
  · intro h
    exact ⟨_, List.mem_filter.mpr ⟨h, by simp⟩, rfl⟩

theorem version_reads (v : Version) : Version.fromStr v.display = .ok v := by cases v; rfl

/-- **C71** A graph written from a model is not read back: with the IRI it was written with, or without an IRI, reading it
panics as soon as the model defines a shape; else the result is an empty model. -/
theorem C71_reading (m : Model) (modelIri : Option Iri) (g : Graph) (hw : WfModel m) (hv : ValidModel m)
    (hr : ∀ id s, DefinesShape m id s → modelIri ≠ some (shapeToIri id)) (hg : modelToRdf m modelIri = .ok g) :
    ∀ i, i = modelIri ∨ i = none →
      ((∃ id s, DefinesShape m id s) → rdfToModel g i = .error .panic) ∧
      ((¬ ∃ id s, DefinesShape m id s) → rdfToModel g i = .ok (Model.new m.version)) := by
  obtain ⟨g', root, h1, h2, h3⟩ := C68_describes m modelIri hw hv hr
  rw [h1] at hg; cases hg
  have hsubj : ∀ i, i = modelIri ∨ i = none → modelSubject g i = .ok root := by
    have hnone : modelSubject g none = .ok root := by
      unfold modelSubject
      have : ((g.filter fun st => decide (st.pred = aType ∧ st.obj = named (smithy %s"Model"))).map (·.subj)).eraseDups = [root] := by
        refine eraseDups_one fun n => ?_
        rw [List.mem_map]
        constructor
        · rintro ⟨⟨s', p', o'⟩, h, rfl⟩
          rw [List.mem_filter] at h
          obtain ⟨h4, h5⟩ := h
          simp only [decide_eq_true_eq] at h5
          obtain ⟨rfl, rfl⟩ := h5
          exact h2.unique s' h4
        · rintro rfl
          exact ⟨_, List.mem_filter.mpr ⟨(h2.about _ _).mpr (.inr (.inl ⟨rfl, rfl⟩)), decide_eq_true ⟨rfl, rfl⟩⟩, rfl⟩
      rw [this]
    rintro i (rfl | rfl)
    · cases i with
      | none => exact hnone
      | some i =>
        simp only at h3
        subst h3
        have hm := (h2.about (rdfTerm %s"type") (res (smithyTerm %s"Model"))).mpr (.inr (.inl ⟨rfl, rfl⟩))
        have : (g.any fun st => decide (st = ⟨.iri i, aType, named (smithy %s"Model")⟩)) = true :=
          List.any_eq_true.mpr ⟨_, hm, decide_eq_true rfl⟩
        unfold modelSubject
        simp only [this, if_true]
    · exact hnone
  have hver : literalString g root (smithy %s"smithy_version") %s"version" = .ok m.version.display := by
    unfold literalString objectsFor
    have : ((g.filter fun st => decide (st.subj = root ∧ st.pred = smithy %s"smithy_version")).map (·.obj)).eraseDups = [.lit (.plain m.version.display)] := by
      refine eraseDups_one fun o => ?_
      rw [mem_objects, h2.about]
      have n1 : ¬ smithyTerm %s"smithy_version" = smithyTerm %s"shape" := smithy_ne (by decide)
      simp only [smithy_eq, n1, smithy_rdf_iff, false_and, or_false, true_and]
      rfl
    rw [this]
    rfl
  have hshape : ∀ o, o ∈ objectsFor g root (smithy %s"shape") ↔ ∃ id s, DefinesShape m id s ∧ o = res (shapeToIri id) := by
    intro o
    unfold objectsFor
    rw [List.mem_eraseDups, mem_objects, h2.about]
    have n1 : ¬ smithyTerm %s"shape" = smithyTerm %s"smithy_version" := smithy_ne (by decide)
    simp only [smithy_eq, n1, smithy_rdf_iff, false_and, true_and, false_or]
  intro i hi
  have hrun : rdfToModel g i = match objectsFor g root (smithy %s"shape") with
      | [] => .ok (Model.new m.version)
      | _ :: _ => .error .panic := by
    unfold rdfToModel
    rw [hsubj i hi]
    change (literalString g root (smithy %s"smithy_version") %s"version" >>= _) = _
    rw [hver]
    change (Version.fromStr m.version.display >>= fun version => (match objectsFor g root (smithy %s"shape") with
      | [] => Except.ok (Model.new version)
      | _ :: _ => Except.error Err.panic)) = _
    rw [version_reads]
    rfl
  rw [hrun]
  constructor
  · rintro ⟨id, s, hd⟩
    have := (hshape _).mpr ⟨id, s, hd, rfl⟩
    cases ho : objectsFor g root (smithy %s"shape") with
    | nil => rw [ho] at this; cases this
    | cons a l => rfl
  · intro hn
    cases ho : objectsFor g root (smithy %s"shape") with
    | nil => rfl
    | cons a l =>
      obtain ⟨id, s, hd, -⟩ := (hshape a).mp (by rw [ho]; exact List.mem_cons_self)
      exact absurd ⟨id, s, hd⟩ hn

/-- **C71** With another IRI the graph is rejected with an error. -/
theorem C71_other_iri (m : Model) (modelIri : Option Iri) (i : Iri) (g : Graph) (hw : WfModel m) (hv : ValidModel m)
    (hr : ∀ id s, DefinesShape m id s → modelIri ≠ some (shapeToIri id)) (hg : modelToRdf m modelIri = .ok g) (hi : modelIri ≠ some i) :
    rdfToModel g (some i) = .error (.deserialization %s"RDF" %s"model" none) := by
  obtain ⟨g', root, h1, h2, h3⟩ := C68_describes m modelIri hw hv hr
  rw [h1] at hg; cases hg
  have : (g.any fun st => decide (st = ⟨.iri i, aType, named (smithy %s"Model")⟩)) = false := by
    rw [List.any_eq_false]
    intro st hst he
    rw [of_decide_eq_true he] at hst
    have := h2.unique _ hst
    cases modelIri with
    | none =>
      obtain ⟨n, rfl⟩ := h3
      cases this
    | some j =>
      simp only at h3
      subst h3
      injection this with this
      exact hi (by rw [this])
  unfold rdfToModel modelSubject
  simp only [this, Bool.false_eq_true, if_false]
  rfl

theorem two_members {α : Type} {l : List α} {x y : α} (hx : x ∈ l) (hy : y ∈ l) (h : x ≠ y) : l ≠ [] ∧ ∀ z, l ≠ [z] := by
  constructor
  · rintro rfl; cases hx
  · rintro z rfl
    rw [List.mem_singleton] at hx hy
    exact h (hx.trans hy.symm)

/-- **C71** Whatever graph is read: one that has two models is rejected with an error unless the IRI of the model is given, and one
whose model has two versions is rejected in any case. -/
theorem C71_ambiguous (g : Graph) :
    (∀ a b, a ≠ b → (⟨a, rdfTerm %s"type", res (smithyTerm %s"Model")⟩ : Statement) ∈ g →
      (⟨b, rdfTerm %s"type", res (smithyTerm %s"Model")⟩ : Statement) ∈ g →
      rdfToModel g none = .error (.deserialization %s"RDF" %s"model" none)) ∧
    (∀ (i : Iri) (v w : Obj), v ≠ w → (⟨.iri i, rdfTerm %s"type", res (smithyTerm %s"Model")⟩ : Statement) ∈ g →
      (⟨.iri i, smithyTerm %s"smithy_version", v⟩ : Statement) ∈ g → (⟨.iri i, smithyTerm %s"smithy_version", w⟩ : Statement) ∈ g →
      ∃ e, e ≠ .panic ∧ rdfToModel g (some i) = .error e) := by
  constructor
  · intro a b hab ha hb
    have key : ∀ n, (⟨n, rdfTerm %s"type", res (smithyTerm %s"Model")⟩ : Statement) ∈ g →
        n ∈ ((g.filter fun st => decide (st.pred = aType ∧ st.obj = named (smithy %s"Model"))).map (·.subj)).eraseDups := by
      intro n hn
      rw [List.mem_eraseDups, List.mem_map]
      exact ⟨_, List.mem_filter.mpr ⟨hn, decide_eq_true ⟨rfl, rfl⟩⟩, rfl⟩
    obtain ⟨h1, h2⟩ := two_members (key a ha) (key b hb) hab
    unfold rdfToModel modelSubject
    dsimp only
    split
    · next hs => exact absurd hs (h2 _)
    · rfl
  · intro i v w hvw hm hv hw
    have h0 : modelSubject g (some i) = .ok (.iri i) := by
      unfold modelSubject
      have : (g.any fun st => decide (st = ⟨.iri i, aType, named (smithy %s"Model")⟩)) = true :=
        List.any_eq_true.mpr ⟨_, hm, decide_eq_true rfl⟩
      simp only [this, if_true]
    obtain ⟨h1, h2⟩ := two_members (l := objectsFor g (.iri i) (smithy %s"smithy_version")) (List.mem_eraseDups.mpr (mem_objects.mpr hv))
      (List.mem_eraseDups.mpr (mem_objects.mpr hw)) hvw
    have h3 : literalString g (.iri i) (smithy %s"smithy_version") %s"version" =
        .error (.deserialization %s"RDF" %s"version" (some %s"len")) := by
      unfold literalString
      split
      · next hs => exact absurd hs (h2 _)
      · next hs => exact absurd hs (h2 _)
      · rfl
    refine ⟨.deserialization %s"RDF" %s"version" (some %s"len"), nofun, ?_⟩
    change (modelSubject g (some i) >>= fun subject => _) = _
    rw [h0]
    change (literalString g (.iri i) (smithy %s"smithy_version") %s"version" >>= fun _ => _) = _
    rw [h3]; rfl

example : rdfToModel [⟨.blank 0, rdfTerm %s"type", res (smithyTerm %s"Model")⟩, ⟨.blank 1, rdfTerm %s"type", res (smithyTerm %s"Model")⟩] none =
    .error (.deserialization %s"RDF" %s"model" none) :=
  (C71_ambiguous _).1 (.blank 0) (.blank 1) (by decide) (by simp) (by simp)

/-! ### Examples -/

theorem exJsonModel_names : MapNames exJsonModel := by
  intro id s k v h hb
  have := AMap.mem_of_get h
  simp only [exJsonModel, List.mem_cons, Prod.mk.injEq, List.not_mem_nil, or_false] at this
  rcases this with ⟨rfl, rfl⟩ | ⟨rfl, rfl⟩ | ⟨rfl, rfl⟩ <;> cases hb

/-- The same model without metadata. -/
def exBare : Model := { exJsonModel with metadata := [] }

theorem exBare_ok : WfModel exBare ∧ ValidModel exBare :=
  ⟨⟨AMap.wf_nil, fun k v h => by simp [exBare] at h, exJsonModel_ok.1.nodup, exJsonModel_ok.1.key, exJsonModel_ok.1.member, exJsonModel_ok.1.shapes⟩,
    exJsonModel_ok.2.1⟩

theorem exBare_names : MapNames exBare := exJsonModel_names

/-- An IRI for the model. -/
def exIri : Iri := Iri.ofText %s"http://example.org/model"

theorem exIri_free (m : Model) : ∀ id s, DefinesShape m id s → some exIri ≠ some (shapeToIri id) := by
  intro id s _ h
  have := congrArg (Option.map Iri.scheme) h
  simp only [Option.map_some, shapeToIri_scheme] at this
  revert this; decide

/-- C68 and C71 for a structure, a list and a service, with a given IRI and with a blank node. -/
example : ∃ g root, modelToRdf exJsonModel (some exIri) = .ok g ∧ ModelAt g root exJsonModel ∧ root = .iri exIri :=
  C68_describes exJsonModel (some exIri) exJsonModel_ok.1 exJsonModel_ok.2.1 (exIri_free _)

example : ∃ g, modelToRdf exJsonModel none = .ok g ∧ rdfToModel g none = .error .panic := by
  obtain ⟨g, root, h, -⟩ := C68_describes exJsonModel none exJsonModel_ok.1 exJsonModel_ok.2.1 (by intros; nofun)
  exact ⟨g, h, (C71_reading exJsonModel none g exJsonModel_ok.1 exJsonModel_ok.2.1 (by intros; nofun) h none (.inl rfl)).1
    ⟨sid %s"S", _, rfl, nofun⟩⟩

/-- The hypotheses of C69 hold of two different models. -/
example : exJsonModel ≠ exBare ∧ ∃ g g', modelToRdf exJsonModel (some exIri) = .ok g ∧ modelToRdf exBare (some exIri) = .ok g' ∧
    SameGraph g g' ∧ ModelContent exJsonModel exBare := by
  refine ⟨fun h => by have := congrArg (fun m => m.metadata.length) h; revert this; decide, ?_⟩
  obtain ⟨g, root, h, -⟩ := C68_describes exJsonModel (some exIri) exJsonModel_ok.1 exJsonModel_ok.2.1 (exIri_free _)
  have h' : modelToRdf exBare (some exIri) = .ok g := (C70_metadata exJsonModel [] (some exIri)).trans h
  have hs : SameGraph g g := by
    refine ⟨fun n => n, fun _ _ h => h, fun st => ?_⟩
    have : relabel (fun n => n) g = g := by
      unfold relabel
      have : ∀ st : Statement, (⟨relabelNode (fun n => n) st.subj, st.pred, relabelObj (fun n => n) st.obj⟩ : Statement) = st := by
        rintro ⟨s, p, o⟩
        have hn : ∀ n : Node, relabelNode (fun n => n) n = n := by intro n; cases n <;> rfl
        cases o <;> simp [relabelObj, hn]
      simp [this]
    rw [this]
  exact ⟨g, g, h, h', hs, C69_same_graph exJsonModel exBare (some exIri) g g exJsonModel_ok.1 exBare_ok.1 exJsonModel_ok.2.1 exBare_ok.2
    exJsonModel_names exBare_names (exIri_free _) (exIri_free _) h h' hs⟩

/-- The hypothesis of C70 for arrays holds of arrays in another order, with repetitions. -/
example : SameElements [%s"a", %s"b", %s"a"] [%s"b", %s"a"] ∧ [%s"a", %s"b", %s"a"] ≠ [%s"b", %s"a"] :=
  ⟨fun x => by simp only [List.mem_cons, List.not_mem_nil, or_false]; tauto, by decide⟩

/-- The specification is not trivial: a graph that lacks the version does not describe the model. -/
example (m : Model) : ¬ ModelAt [] (.blank 0) m := by
  intro h
  have := (h.about _ _).mpr (.inl ⟨rfl, rfl⟩)
  cases this

end Rdf
end Verif
