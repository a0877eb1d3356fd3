/-
Properties C68 and C69 (RDF graphs of models).
-/
import Verif.RdfLemmas

namespace Verif
open Spec
namespace Rdf
open Emit

/-- The insertions for a shape. -/
def shapeEmit (root : Node) (s : TopLevelShape) : Emit :=
  let n := Node.iri (shapeToIri s.id)
  match s.body with
  | .simple b => declare root s.id (simpleName b) ;; fromTraits n s.traits
  | .list m => declare root s.id %s"List" ;; fromMember n m ;; fromTraits n s.traits
  | .set m => declare root s.id %s"Set" ;; fromMember n m ;; fromTraits n s.traits
  | .map k v => declare root s.id %s"Map" ;; fromMember n k ;; fromMember n v ;; fromTraits n s.traits
  | .struct ms => declare root s.id %s"Structure" ;; each (fromMember n) (AMap.values ms) ;; fromTraits n s.traits
  | .union ms => declare root s.id %s"Union" ;; each (fromMember n) (AMap.values ms) ;; fromTraits n s.traits
  | .service b => declare root s.id %s"Service" ;; insert n (smithy %s"version") (text b.version) ;;
      targets n (smithy %s"operation") b.operations ;; targets n (smithy %s"resource") b.resources ;; fromTraits n s.traits
  | .operation o => declare root s.id %s"Operation" ;; targets n (smithy %s"input") o.input.toList ;;
      targets n (smithy %s"output") o.output.toList ;; targets n (smithy %s"error") o.errors ;; fromTraits n s.traits
  | .resource r => declare root s.id %s"Resource" ;; fromIdentifiers n r.identifiers ;;
      targets n (smithy %s"create") r.create.toList ;; targets n (smithy %s"put") r.put.toList ;;
      targets n (smithy %s"update") r.update.toList ;; targets n (smithy %s"delete") r.delete.toList ;;
      targets n (smithy %s"read") r.read.toList ;; targets n (smithy %s"list") r.list.toList ;;
      targets n (smithy %s"operation") r.operations ;; targets n (smithy %s"collectionOperation") r.collectionOperations ;;
      targets n (smithy %s"resource") r.resources ;; fromTraits n s.traits
  | .unresolved => skip

theorem walkShape_eq (root : Node) (s : TopLevelShape) : Visitor.walkShape (visitor root) s = method (shapeEmit root s) := by
  obtain ⟨id, ts, body⟩ := s
  cases body <;> rfl

theorem forEach_eq (root : Node) (l : List TopLevelShape) (g : Graph) (n : Nat) :
    Step.forEach (Visitor.walkShape (visitor root)) l (g, n) = method (each (shapeEmit root) l) (g, n) := by
  induction l generalizing g n with
  | nil => simp [Step.forEach, method, each, skip]
  | cons s l ih =>
    simp only [Step.forEach, walkShape_eq]
    simp only [method]
    rw [ih]
    simp only [method, each, Emit.seq, List.append_assoc]

theorem forEach_metadata (root : Node) (l : List (Str × Value)) (st : State) :
    Step.forEach (fun (e : Str × Value) => (visitor root).metadata e.1 e.2) l st = (st, .ok ()) := by
  induction l generalizing st with
  | nil => rfl
  | cons e l ih =>
    have : (visitor root).metadata e.1 e.2 st = (st, .ok ()) := by
      obtain ⟨g, n⟩ := st
      simp [visitor, method, skip]
    simp only [Step.forEach, this]
    exact ih st

theorem walkModel_eq (root : Node) (m : Model) (st : State) :
    Visitor.walkModel m (visitor root) st = method (each (shapeEmit root) m.shapesList) st := by
  obtain ⟨g, n⟩ := st
  simp only [Visitor.walkModel, Step.andThen, forEach_metadata]
  exact forEach_eq root m.shapesList g n

/-- The subject of the model in the graph, and the first number for other blank nodes. -/
def start (modelIri : Option Iri) : Node × Nat := match modelIri with | none => (.blank 0, 1) | some i => (.iri i, 0)

theorem modelToRdf_eq (m : Model) (modelIri : Option Iri) :
    modelToRdf m modelIri = .ok ([⟨(start modelIri).1, smithyTerm %s"smithy_version", str m.version.display⟩,
      ⟨(start modelIri).1, rdfTerm %s"type", res (smithyTerm %s"Model")⟩] ++
      (each (shapeEmit (start modelIri).1) m.shapesList (start modelIri).2).1) := by
  unfold modelToRdf
  cases modelIri <;> simp only [walkModel_eq, method] <;> rfl

theorem declare_writes {root : Node} {n : Nat} (h : Old n root) (id : ShapeID) (c : Str) :
    Writes (declare root id c) n (at_ root [(smithyTerm %s"shape", res (shapeToIri id))] ++
      at_ (.iri (shapeToIri id)) [(rdfTerm %s"type", res (smithyTerm c))]) (fun _ => True) :=
  ((writes_at h).seq (writes_at (old_iri _ _)) (old_at (old_iri _ _) _)).imp fun _ _ => trivial

theorem declare_seq {root : Node} {n : Nat} (h : Old n root) (id : ShapeID) (c : Str) {e : Emit} {l : List (Iri × Obj)} {P : Graph → Prop}
    (he : Writes e n (at_ (.iri (shapeToIri id)) l) P) :
    Writes (declare root id c ;; e) n (at_ root [(smithyTerm %s"shape", res (shapeToIri id))] ++
      at_ (.iri (shapeToIri id)) ((rdfTerm %s"type", res (smithyTerm c)) :: l)) P := by
  have := (declare_writes h id c).seq (b := e) he (old_at (old_iri _ _) _)
  rw [List.append_assoc, ← at_append] at this
  exact this.imp fun _ hg => hg.2

theorem about_congr {g : Graph} {n : Node} {l l' : List (Iri × Obj)} (h : About g n l) (hl : ∀ x, x ∈ l ↔ x ∈ l') : About g n l' :=
  fun p o => (h p o).trans (hl (p, o))

/-- What follows the targets. -/
theorem targets_seq {s : Node} (hs : ∀ n, Old n s) (p : Iri) (xs : List ShapeID) {e : Emit} {R : List (Iri × Obj) → Graph → Prop}
    (h : ∀ n, ∃ l, Writes e n (at_ s l) (R l)) (n : Nat) :
    ∃ l, Writes (targets s p xs ;; e) n (at_ s l) (fun g => ∃ l', l = xs.map (fun x => (p, res (shapeToIri x))) ++ l' ∧ R l' g) := by
  obtain ⟨l, hl⟩ := h (targets s p xs n).2
  exact ⟨_, (Writes.seqAt (hs n) (writes_targets p xs (hs n)) hl).imp fun g hg => ⟨l, rfl, hg.2⟩⟩

theorem traits_end {s : Node} (hs : ∀ n, Old n s) (ts : Traits) (n : Nat) :
    ∃ l, Writes (fromTraits s ts) n (at_ s l)
      (fun g => ∃ os : List Obj, l = os.map (Prod.mk (smithyTerm %s"apply")) ∧ List.Forall₂ (TraitAt g) os ts) := by
  obtain ⟨os, h⟩ := writes_traits ts (hs n)
  exact ⟨_, h.imp fun g hg => ⟨os, rfl, hg⟩⟩

/-- The insertions for a defined shape: one about the model, and those that describe the shape. -/
theorem shape_writes {root : Node} {n : Nat} (h : Old n root) (s : TopLevelShape) (hu : s.body ≠ .unresolved) :
    ∃ l, Writes (shapeEmit root s) n (at_ root [(smithyTerm %s"shape", res (shapeToIri s.id))] ++ at_ (.iri (shapeToIri s.id)) l)
      (fun g => About g (.iri (shapeToIri s.id)) l → ShapeAt g s) := by
  obtain ⟨id, ts, body⟩ := s
  have ho : ∀ n, Old n (.iri (shapeToIri id)) := fun n => old_iri n _
  cases body with
  | simple b =>
    obtain ⟨os, h1⟩ := writes_traits ts (ho n)
    refine ⟨_, (declare_seq h id (simpleName b) h1).imp fun g hg ha => ⟨[], [], os, .nil, .inl ⟨rfl, rfl⟩, hg, ?_⟩⟩
    refine about_congr ha fun x => ?_
    cases b <;> rfl
  | list m =>
    obtain ⟨o, h1⟩ := writes_member m (ho n)
    obtain ⟨os, h2⟩ := writes_traits ts (ho _)
    refine ⟨_, (declare_seq h id _ (Writes.seqAt (ho _) h1 h2)).imp fun g hg ha =>
      ⟨[o], [], os, .cons hg.1 .nil, .inl ⟨rfl, rfl⟩, hg.2, ?_⟩⟩
    exact about_congr ha fun x => by simp [literalsOf, referencesOf, className]; rfl
  | set m =>
    obtain ⟨o, h1⟩ := writes_member m (ho n)
    obtain ⟨os, h2⟩ := writes_traits ts (ho _)
    refine ⟨_, (declare_seq h id _ (Writes.seqAt (ho _) h1 h2)).imp fun g hg ha =>
      ⟨[o], [], os, .cons hg.1 .nil, .inl ⟨rfl, rfl⟩, hg.2, ?_⟩⟩
    exact about_congr ha fun x => by simp [literalsOf, referencesOf, className]; rfl
  | map k v =>
    obtain ⟨o, h1⟩ := writes_member k (ho n)
    obtain ⟨o', h2⟩ := writes_member v (ho _)
    obtain ⟨os, h3⟩ := writes_traits ts (ho _)
    refine ⟨_, (declare_seq h id _ (Writes.seqAt (ho _) h1 (Writes.seqAt (ho _) h2 h3))).imp fun g hg ha =>
      ⟨[o, o'], [], os, .cons hg.1 (.cons hg.2.1 .nil), .inl ⟨rfl, rfl⟩, hg.2.2, ?_⟩⟩
    exact about_congr ha fun x => by simp [literalsOf, referencesOf, className]; rfl
  | struct ms =>
    obtain ⟨o, h1⟩ := writes_each (AMap.values ms) (fun x _ _ h => writes_member x h) (ho n)
    obtain ⟨os, h2⟩ := writes_traits ts (ho _)
    refine ⟨_, (declare_seq h id _ (Writes.seqAt (ho _) h1 h2)).imp fun g hg ha =>
      ⟨o, [], os, hg.1, .inl ⟨rfl, rfl⟩, hg.2, ?_⟩⟩
    exact about_congr ha fun x => by simp [literalsOf, referencesOf, className]; rfl
  | union ms =>
    obtain ⟨o, h1⟩ := writes_each (AMap.values ms) (fun x _ _ h => writes_member x h) (ho n)
    obtain ⟨os, h2⟩ := writes_traits ts (ho _)
    refine ⟨_, (declare_seq h id _ (Writes.seqAt (ho _) h1 h2)).imp fun g hg ha =>
      ⟨o, [], os, hg.1, .inl ⟨rfl, rfl⟩, hg.2, ?_⟩⟩
    exact about_congr ha fun x => by simp [literalsOf, referencesOf, className]; rfl
  | service b =>
    obtain ⟨l, h2⟩ := targets_seq ho (smithy %s"operation") b.operations
      (targets_seq ho (smithy %s"resource") b.resources (traits_end ho ts)) n
    refine ⟨_, (declare_seq h id _ (Writes.seqAt (ho _) (writes_at (ho _)) h2)).imp ?_⟩
    rintro g ⟨-, l1, rfl, l2, rfl, os, rfl, hg⟩ ha
    refine ⟨[], [], os, .nil, .inl ⟨rfl, rfl⟩, hg, about_congr ha fun x => ?_⟩
    simp [literalsOf, referencesOf, className, List.map_map, Function.comp_def]
    rfl
  | operation o =>
    obtain ⟨l, h2⟩ := targets_seq ho (smithy %s"input") o.input.toList (targets_seq ho (smithy %s"output") o.output.toList
      (targets_seq ho (smithy %s"error") o.errors (traits_end ho ts))) n
    refine ⟨_, (declare_seq h id _ h2).imp ?_⟩
    rintro g ⟨l1, rfl, l2, rfl, l3, rfl, os, rfl, hg⟩ ha
    refine ⟨[], [], os, .nil, .inl ⟨rfl, rfl⟩, hg, about_congr ha fun x => ?_⟩
    simp [literalsOf, referencesOf, className, List.map_map, Function.comp_def]
    rfl
  | resource r =>
    obtain ⟨ids, h1⟩ := writes_identifiers r.identifiers (ho n)
    obtain ⟨l, h2⟩ := targets_seq ho (smithy %s"create") r.create.toList (targets_seq ho (smithy %s"put") r.put.toList
      (targets_seq ho (smithy %s"update") r.update.toList (targets_seq ho (smithy %s"delete") r.delete.toList
      (targets_seq ho (smithy %s"read") r.read.toList (targets_seq ho (smithy %s"list") r.list.toList
      (targets_seq ho (smithy %s"operation") r.operations (targets_seq ho (smithy %s"collectionOperation") r.collectionOperations
      (targets_seq ho (smithy %s"resource") r.resources (traits_end ho ts)))))))))
      (fromIdentifiers (.iri (shapeToIri id)) r.identifiers n).2
    refine ⟨_, (declare_seq h id _ (Writes.seqAt (ho _) h1 h2)).imp ?_⟩
    rintro g ⟨hi, l1, rfl, l2, rfl, l3, rfl, l4, rfl, l5, rfl, l6, rfl, l7, rfl, l8, rfl, l9, rfl, os, rfl, hg⟩ ha
    refine ⟨[], ids, os, .nil, hi, hg, about_congr ha fun x => ?_⟩
    simp only [literalsOf, referencesOf, className, List.map_map, Function.comp_def, List.mem_cons, List.mem_append, List.map_append,
      List.map_nil, List.not_mem_nil, smithy_eq, false_or, or_assoc]
    have swap : ∀ {a b c d e f g h i j k l : Prop}, (a ∨ b ∨ c ∨ d ∨ e ∨ f ∨ g ∨ h ∨ i ∨ j ∨ k ∨ l) ↔
      (a ∨ b ∨ c ∨ d ∨ g ∨ e ∨ f ∨ h ∨ i ∨ j ∨ k ∨ l) := by intros; tauto
    exact swap
  | unresolved => exact absurd rfl hu

/-- The insertions for all shapes. -/
theorem shapes_write {root : Node} (shapes : List TopLevelShape) {n : Nat} (h : Old n root) :
    ∃ ls : List (TopLevelShape × List (Iri × Obj)), ls.map (·.1) = shapes.filter (fun s => !s.isUnresolved) ∧
      Writes (each (shapeEmit root) shapes) n
        (ls.flatMap fun e => at_ root [(smithyTerm %s"shape", res (shapeToIri e.1.id))] ++ at_ (.iri (shapeToIri e.1.id)) e.2)
        (fun g => ∀ e ∈ ls, About g (.iri (shapeToIri e.1.id)) e.2 → ShapeAt g e.1) := by
  induction shapes generalizing n with
  | nil => exact ⟨[], rfl, (writes_skip n).imp fun g _ => by simp⟩
  | cons s shapes ih =>
    cases hu : s.isUnresolved with
    | true =>
      obtain ⟨ls, h1, h2⟩ := ih h
      refine ⟨ls, by simp [hu, h1], ?_⟩
      have hb : s.body = .unresolved := by
        unfold TopLevelShape.isUnresolved ShapeKind.isUnresolved at hu
        split at hu <;> simp_all
      have he : each (shapeEmit root) (s :: shapes) = each (shapeEmit root) shapes := by
        have : shapeEmit root s = skip := by unfold shapeEmit; rw [hb]
        simp only [each, this]; rfl
      rw [he]; exact h2
    | false =>
      have hb : s.body ≠ .unresolved := by
        intro hb; unfold TopLevelShape.isUnresolved at hu; rw [hb] at hu; cases hu
      obtain ⟨l, hl⟩ := shape_writes h s hb
      obtain ⟨ls, h1, h2⟩ := ih (h.mono hl.mono)
      refine ⟨(s, l) :: ls, by simp [hu, h1], ?_⟩
      refine (hl.seq h2 ?_).imp ?_
      · intro st hst
        obtain ⟨e, -, he⟩ := List.mem_flatMap.mp hst
        rcases List.mem_append.mp he with he | he
        · exact old_at h _ st he
        · exact old_at (old_iri _ _) _ st he
      · rintro g ⟨hg1, hg2⟩ e he
        rcases List.mem_cons.mp he with rfl | he
        · exact hg1
        · exact hg2 e he


/-! ### Nothing but the model is of type `smithy:Model` -/

theorem shapeToIri_scheme (id : ShapeID) : (shapeToIri id).scheme = some %s"urn" := by
  unfold shapeToIri Iri.ofText shapeUrnText
  rfl

theorem shapeToIri_ne_smithy (id : ShapeID) (n : Str) : shapeToIri id ≠ smithyTerm n := by
  intro h
  have := congrArg Iri.scheme h
  rw [shapeToIri_scheme] at this
  simp [smithyTerm] at this

/-- No statement has `smithy:Model` as object. -/
def NoModel (e : Emit) : Prop := ∀ n, ∀ st ∈ (e n).1, st.obj ≠ res (smithyTerm %s"Model")

theorem noModel_skip : NoModel skip := by intro n st h; simp [skip] at h
theorem noModel_insert {s : Node} {p : Iri} {o : Obj} (h : o ≠ res (smithyTerm %s"Model")) : NoModel (Emit.insert s p o) := by
  intro n st hst; simp [Emit.insert] at hst; subst hst; exact h
theorem NoModel.seq {a b : Emit} (ha : NoModel a) (hb : NoModel b) : NoModel (a ;; b) := by
  intro n st hst
  rcases List.mem_append.mp hst with h | h
  · exact ha _ st h
  · exact hb _ st h
theorem noModel_fresh {f : Node → Emit} (h : ∀ n, NoModel (f (.blank n))) : NoModel (Emit.fresh f) := fun n => h n (n + 1)
theorem noModel_each {α : Type} {f : α → Emit} (h : ∀ x, NoModel (f x)) (l : List α) : NoModel (each f l) := by
  induction l with
  | nil => exact noModel_skip
  | cons x xs ih => exact (h x).seq ih
theorem noModel_blank {s : Node} {p : Iri} {n : Nat} : NoModel (Emit.insert s p (.node (.blank n))) := noModel_insert nofun
theorem noModel_lit {s : Node} {p : Iri} {l : Lit} : NoModel (Emit.insert s p (.lit l)) := noModel_insert nofun
theorem noModel_text {s : Node} {p : Iri} {l : Str} : NoModel (Emit.insert s p (text l)) := noModel_insert nofun
theorem noModel_rdf {s : Node} {p : Iri} {n : Str} : NoModel (Emit.insert s p (named (rdf n))) :=
  noModel_insert (by rw [rdf_eq]; simp [named, res, rdfTerm, smithyTerm])
theorem noModel_shape {s : Node} {p : Iri} {id : ShapeID} : NoModel (Emit.insert s p (named (shapeToIri id))) :=
  noModel_insert (by
    intro h
    injection h with h; injection h with h
    exact shapeToIri_ne_smithy _ _ h)

mutual
  theorem noModel_value (s : Node) (p : Iri) (v : Value) : NoModel (fromValue s p v) := by
    cases v with
    | string v => unfold fromValue; exact noModel_text
    | number x => cases x <;> (unfold fromValue; exact noModel_lit)
    | boolean v => unfold fromValue; exact noModel_lit
    | none => unfold fromValue; exact noModel_rdf
    | array vs => unfold fromValue; exact noModel_fresh fun n => noModel_blank.seq (noModel_rdf.seq (noModel_items _ vs))
    | object es => unfold fromValue; exact noModel_fresh fun n => noModel_blank.seq (noModel_rdf.seq (noModel_entries _ es))
  theorem noModel_items (b : Node) (vs : List Value) : NoModel (fromItems b vs) := by
    cases vs with
    | nil => unfold fromItems; exact noModel_skip
    | cons v vs => unfold fromItems; exact (noModel_value _ _ v).seq (noModel_items b vs)
  theorem noModel_entries (b : Node) (es : List (Str × Value)) : NoModel (fromEntries b es) := by
    cases es with
    | nil => unfold fromEntries; exact noModel_skip
    | cons e es =>
      obtain ⟨k, v⟩ := e
      unfold fromEntries
      exact (noModel_fresh fun n => noModel_blank.seq (noModel_text.seq (noModel_value _ _ v))).seq (noModel_entries b es)
end

theorem noModel_traits (s : Node) (ts : Traits) : NoModel (fromTraits s ts) :=
  noModel_each (fun e => noModel_fresh fun n => noModel_blank.seq (noModel_shape.seq (by
    obtain ⟨id, v⟩ := e
    cases v with
    | none => exact noModel_skip
    | some v => exact noModel_value _ _ v))) ts

theorem noModel_member (s : Node) (m : MemberShape) : NoModel (fromMember s m) :=
  noModel_fresh fun _ => noModel_blank.seq (noModel_text.seq (noModel_shape.seq (noModel_traits _ _)))

theorem noModel_targets (s : Node) (p : Iri) (xs : List ShapeID) : NoModel (targets s p xs) := noModel_each (fun _ => noModel_shape) xs

theorem noModel_identifiers (s : Node) (ids : AMap Str ShapeID) : NoModel (fromIdentifiers s ids) := by
  unfold fromIdentifiers
  split
  · exact noModel_skip
  · exact noModel_fresh fun n => noModel_blank.seq (noModel_rdf.seq (noModel_each (fun e => noModel_fresh fun n =>
      noModel_blank.seq (noModel_text.seq noModel_shape)) _))

theorem noModel_declare (root : Node) (id : ShapeID) (c : Str) (h : c ≠ %s"Model") : NoModel (declare root id c) :=
  noModel_shape.seq (noModel_insert (by
    intro e
    injection e with e; injection e with e
    rw [smithy_eq] at e
    injection e with _ _ _ _ e
    injection e with e
    exact h e))

theorem noModel_shapeEmit (root : Node) (s : TopLevelShape) : NoModel (shapeEmit root s) := by
  unfold shapeEmit
  have hs : ∀ b, simpleName b ≠ %s"Model" := by intro b; cases b <;> decide
  split <;> simp only
  · exact (noModel_declare _ _ _ (hs _)).seq (noModel_traits _ _)
  · exact (noModel_declare _ _ _ (by decide)).seq ((noModel_member _ _).seq (noModel_traits _ _))
  · exact (noModel_declare _ _ _ (by decide)).seq ((noModel_member _ _).seq (noModel_traits _ _))
  · exact (noModel_declare _ _ _ (by decide)).seq ((noModel_member _ _).seq ((noModel_member _ _).seq (noModel_traits _ _)))
  · exact (noModel_declare _ _ _ (by decide)).seq ((noModel_each (noModel_member _) _).seq (noModel_traits _ _))
  · exact (noModel_declare _ _ _ (by decide)).seq ((noModel_each (noModel_member _) _).seq (noModel_traits _ _))
  · exact (noModel_declare _ _ _ (by decide)).seq (noModel_text.seq ((noModel_targets _ _ _).seq ((noModel_targets _ _ _).seq (noModel_traits _ _))))
  · exact (noModel_declare _ _ _ (by decide)).seq ((noModel_targets _ _ _).seq ((noModel_targets _ _ _).seq ((noModel_targets _ _ _).seq (noModel_traits _ _))))
  · refine (noModel_declare _ _ _ (by decide)).seq ((noModel_identifiers _ _).seq ?_)
    iterate 9 refine (noModel_targets _ _ _).seq ?_
    exact noModel_traits _ _
  · exact noModel_skip

/-! ### C68 -/

theorem start_old (i : Option Iri) : Old (start i).2 (start i).1 := by
  cases i with
  | none => exact old_new 0
  | some i => exact old_iri _ _

theorem defines_iff {m : Model} (hw : WfModel m) (s : TopLevelShape) :
    s ∈ m.shapesList.filter (fun s => !s.isUnresolved) ↔ DefinesShape m s.id s := by
  have hu : s.isUnresolved = false ↔ s.body ≠ .unresolved := by
    unfold TopLevelShape.isUnresolved
    cases s.body <;> simp [ShapeKind.isUnresolved]
  rw [List.mem_filter]
  simp only [Bool.not_eq_true', hu, DefinesShape]
  refine and_congr_left fun _ => ?_
  unfold Model.shapesList AMap.values
  rw [List.mem_map]
  constructor
  · rintro ⟨⟨id, s'⟩, he, rfl⟩
    have := AMap.get_of_mem hw.nodup he
    rw [hw.key id s' this]
    exact this
  · intro h
    exact ⟨(s.id, s), AMap.mem_of_get h, rfl⟩

theorem defines_id {m : Model} (hw : WfModel m) {id : ShapeID} {s : TopLevelShape} (h : DefinesShape m id s) : s.id = id :=
  hw.key id s h.1

/-- **C68** Converting a model to RDF never fails, and the graph describes the model: the subject of the model has its version
and exactly its defined shapes, the node of each shape has exactly its class, members, properties and traits, with their
names, targets and values. -/
theorem C68_describes (m : Model) (modelIri : Option Iri) (hw : WfModel m) (hv : ValidModel m)
    (hr : ∀ id s, DefinesShape m id s → modelIri ≠ some (shapeToIri id)) :
    ∃ g root, modelToRdf m modelIri = .ok g ∧ ModelAt g root m ∧
      (match modelIri with | some i => root = .iri i | none => ∃ n, root = .blank n) := by
  obtain ⟨ls, h1, h2⟩ := shapes_write m.shapesList (start_old modelIri)
  have hroot : ∀ {id s}, DefinesShape m id s → (start modelIri).1 ≠ .iri (shapeToIri id) := by
    intro id s hd
    cases modelIri with
    | none => exact nofun
    | some i => intro h; injection h with h; exact hr id s hd (by rw [h])
  have hls : ∀ e ∈ ls, DefinesShape m e.1.id e.1 := by
    intro e he
    rw [← defines_iff hw, ← h1]
    exact List.mem_map.mpr ⟨e, he, rfl⟩
  have hinj : ∀ e ∈ ls, ∀ e' ∈ ls, shapeToIri e.1.id = shapeToIri e'.1.id → e.1 = e'.1 := by
    intro e he e' he' h
    have h3 := hls e he
    have h4 := hls e' he'
    have := (C07_urn_injective _ _ (hv _ _ h3.1).1 (hv _ _ h4.1).1).1 h
    have h5 := h3.1
    rw [this, h4.1] at h5
    exact (Option.some.inj h5).symm
  have hnd : (ls.map (·.1)).Nodup := by
    rw [h1]
    refine List.Nodup.filter _ ?_
    have hk : (m.shapesList.map (·.id)) = AMap.keys m.shapes := by
      unfold Model.shapesList AMap.values AMap.keys
      rw [List.map_map]
      refine List.map_congr_left fun e he => ?_
      exact hw.key e.1 e.2 (AMap.get_of_mem hw.nodup he)
    refine List.Nodup.of_map (·.id) ?_
    rw [hk]
    exact hw.nodup
  have hinj' : ∀ e ∈ ls, ∀ e' ∈ ls, shapeToIri e.1.id = shapeToIri e'.1.id → e = e' := by
    intro e he e' he' h
    exact List.inj_on_of_nodup_map hnd he he' (hinj e he e' he' h)
  have hag : Agrees ([⟨(start modelIri).1, smithyTerm %s"smithy_version", str m.version.display⟩,
      ⟨(start modelIri).1, rdfTerm %s"type", res (smithyTerm %s"Model")⟩] ++
      (each (shapeEmit (start modelIri).1) m.shapesList (start modelIri).2).1)
      (each (shapeEmit (start modelIri).1) m.shapesList (start modelIri).2).1 (start modelIri).2
      (each (shapeEmit (start modelIri).1) m.shapesList (start modelIri).2).2 := by
    refine ⟨fun st h => List.mem_append.mpr (.inr h), fun st h hi => ?_⟩
    rcases List.mem_append.mp h with h | h
    · have : st.subj = (start modelIri).1 := by
        simp only [List.mem_cons, List.not_mem_nil, or_false] at h
        rcases h with rfl | rfl <;> rfl
      rw [this] at hi
      exact absurd hi (start_old modelIri).not_inside
    · exact h
  have hex : ∀ st, Old (start modelIri).2 st.subj → (st ∈ (each (shapeEmit (start modelIri).1) m.shapesList (start modelIri).2).1 ↔
      ∃ e ∈ ls, st ∈ at_ (start modelIri).1 [(smithyTerm %s"shape", res (shapeToIri e.1.id))] ∨
        st ∈ at_ (.iri (shapeToIri e.1.id)) e.2) := by
    intro st ho
    have : st ∈ (each (shapeEmit (start modelIri).1) m.shapesList (start modelIri).2).1 ↔ st ∈ _ :=
      ⟨fun h => (h2.rest st h).resolve_right ho.not_inside, h2.outer st⟩
    rw [this, List.mem_flatMap]
    simp only [List.mem_append]
  refine ⟨_, (start modelIri).1, modelToRdf_eq m modelIri, ⟨fun p o => ?_, fun id s hd => ?_, fun n hn => ?_, fun st hst i hi => ?_⟩, ?_⟩
  · rw [List.mem_append, hex _ (start_old modelIri)]
    simp only [mem_at, List.mem_cons, List.not_mem_nil, or_false, Statement.mk.injEq, true_and, Prod.mk.injEq]
    rw [or_assoc]
    refine or_congr_right (or_congr_right ?_)
    constructor
    · rintro ⟨e, he, h | h⟩
      · exact ⟨h.1, e.1.id, e.1, hls e he, h.2⟩
      · exact absurd h.1 (hroot (hls e he))
    · rintro ⟨hp, id, s, hd, ho⟩
      have : s ∈ ls.map (·.1) := by rw [h1, defines_iff hw, defines_id hw hd]; exact hd
      obtain ⟨e, he, hes⟩ := List.mem_map.mp this
      refine ⟨e, he, .inl ⟨hp, ?_⟩⟩
      rw [ho, hes, defines_id hw hd]
  · have : s ∈ ls.map (·.1) := by rw [h1, defines_iff hw, defines_id hw hd]; exact hd
    obtain ⟨e, he, rfl⟩ := List.mem_map.mp this
    refine h2.holds _ hag e he fun p o => ?_
    rw [List.mem_append, hex _ (old_iri _ _)]
    have hne : Node.iri (shapeToIri e.1.id) ≠ (start modelIri).1 := (hroot (hls e he)).symm
    constructor
    · rintro (h | ⟨e', he', h | h⟩)
      · simp [hne] at h
      · exact absurd (mem_at.mp h).1 hne
      · obtain ⟨h5, h6⟩ := mem_at.mp h
        injection h5 with h5
        rw [hinj' e he e' he' h5]
        exact h6
    · exact fun h => .inr ⟨e, he, .inr (mem_at.mpr ⟨rfl, h⟩)⟩
  · rcases List.mem_append.mp hn with h | h
    · simp only [List.mem_cons, List.not_mem_nil, or_false, Statement.mk.injEq] at h
      rcases h with ⟨h, -⟩ | ⟨h, -⟩ <;> exact h
    · exact absurd rfl (noModel_each (noModel_shapeEmit _) _ _ _ h)
  · rcases List.mem_append.mp hst with h | h
    · refine .inl ?_
      simp only [List.mem_cons, List.not_mem_nil, or_false] at h
      rcases h with rfl | rfl <;> rfl
    · rw [hex st (by rw [hi]; exact old_iri _ _)] at h
      obtain ⟨e, he, h | h⟩ := h
      · exact .inl (mem_at.mp h).1
      · refine .inr ⟨e.1.id, e.1, hls e he, ?_⟩
        have := (mem_at.mp h).1
        rw [hi] at this
        injection this
  · cases modelIri with
    | none => exact ⟨0, rfl⟩
    | some i => rfl

end Rdf
end Verif
