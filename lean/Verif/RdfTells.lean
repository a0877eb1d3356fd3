/-
C69: what an RDF graph tells of its model, exactly.
-/
import Verif.RdfSame

namespace Verif
open Spec
namespace Rdf
open Emit

/-- The two values are written alike, wherever they are. -/
def Alike (v w : Value) : Prop :=
  ∀ (G : Nat → Nat → Prop) (s s' : Node) (p : Iri), NodeRel G s s' → Sim G (fromValue s p v) (fromValue s' p w)

theorem alike_self (v : Value) : Alike v v := fun _ _ _ _ hs => sim_self v hs

/-! ### Sets of statements with the same subject and predicate -/

theorem each_append {α : Type} (f : α → Emit) (l l' : List α) : each f (l ++ l') = (each f l ;; each f l') := by
  induction l with
  | nil => funext n; simp [each, Emit.seq, skip]
  | cons x l ih => rw [List.cons_append, each, ih, each, seq_assoc]

theorem each_insert {α : Type} (s : Node) (p : Iri) (f : α → Obj) (l : List α) (n : Nat) :
    each (fun x => insert s p (f x)) l n = (l.map fun x => ⟨s, p, f x⟩, n) := by
  induction l with
  | nil => rfl
  | cons x l ih => simp only [each, Emit.seq, Emit.insert, ih, List.map_cons, List.singleton_append]

/-- The statements with these objects are a set. -/
theorem sim_inserts {α : Type} {G : Nat → Nat → Prop} {s s' : Node} (hs : NodeRel G s s') (p : Iri) (f : α → Obj) (hf : ∀ x, ∀ G, ObjRel G (f x) (f x))
    {a b : List α} (h : SameElements a b) : Sim G (each (fun x => insert s p (f x)) a) (each (fun x => insert s' p (f x)) b) := fun n n' _ => by
  refine ⟨0, _, by rw [each_insert]; rfl, by rw [each_insert]; rfl, OneOne.nil n n', ?_⟩
  rw [each_insert, each_insert]
  constructor
  · intro st hst
    obtain ⟨x, hx, rfl⟩ := List.mem_map.mp hst
    exact ⟨_, List.mem_map.mpr ⟨x, (h x).mp hx, rfl⟩, hs.mono fun _ _ => .inl, rfl, hf x _⟩
  · intro st hst
    obtain ⟨x, hx, rfl⟩ := List.mem_map.mp hst
    exact ⟨_, List.mem_map.mpr ⟨x, (h x).mpr hx, rfl⟩, hs.mono fun _ _ => .inl, rfl, hf x _⟩

/-- The object for a value that is neither an array nor an object. -/
def scalarObj : Value → Obj
  | .string v => text v
  | .number (.integer v) => .lit (.long v)
  | .number (.float v) => .lit (.double v)
  | .boolean v => .lit (.boolean v)
  | _ => named (rdf %s"nil")

theorem fromValue_scalar {v : Value} (h : isCompound v = false) (s : Node) (p : Iri) : fromValue s p v = insert s p (scalarObj v) := by
  cases v with
  | number n => cases n <;> rw [fromValue] <;> rfl
  | array => cases h
  | object => cases h
  | _ => rw [fromValue]; rfl

theorem scalarObj_rel (v : Value) (G : Nat → Nat → Prop) : ObjRel G (scalarObj v) (scalarObj v) := by
  cases v with
  | number n => cases n <;> rfl
  | _ => rfl

theorem each_congr {α : Type} {f g : α → Emit} {l : List α} (h : ∀ x ∈ l, f x = g x) : each f l = each g l := by
  induction l with
  | nil => rfl
  | cons x l ih => rw [each, each, h x (by simp), ih fun y hy => h y (by simp [hy])]

/-- The elements that are neither arrays nor objects. -/
def plain (l : List Value) : List Value := l.filter fun x => !isCompound x

theorem each_plain (s : Node) (p : Iri) (l : List Value) : each (fromValue s p) (plain l) = each (fun x => insert s p (scalarObj x)) (plain l) :=
  each_congr fun x hx => fromValue_scalar (by simpa using (List.mem_filter.mp hx).2) s p

theorem split_perm (l : List Value) : l.Perm (l.filter isCompound ++ plain l) := (List.filter_append_perm isCompound l).symm

/-- Values in another order are written alike, and so are those without arrays and objects with other repetitions. -/
theorem sim_shuffled {G : Nat → Nat → Prop} {s : Node} (p : Iri) (hs : NodeRel (Itself G) s s) {a c : List Value} (h : Shuffled a c) :
    Sim (Itself G) (each (fromValue s p) a) (each (fromValue s p) c) := by
  have self : ∀ l : List Value, ∀ x ∈ l, Sim (Itself G) (fromValue s p x) (fromValue s p x) := fun _ x _ => sim_self x hs
  have e1 := sim_perm (split_perm a) (self a)
  have e3 := sim_perm (split_perm c).symm (self _)
  have e2 : Sim (Itself G) (each (fromValue s p) (a.filter isCompound ++ plain a)) (each (fromValue s p) (c.filter isCompound ++ plain c)) := by
    rw [each_append, each_append]
    refine sim_seq (sim_perm h.1 (self _)) ?_
    rw [each_plain, each_plain]
    refine sim_inserts hs p scalarObj scalarObj_rel fun x => ?_
    unfold plain
    rw [List.mem_filter, List.mem_filter]
    cases hx : isCompound x with
    | true => simp
    | false => simpa using h.2 x hx
  refine sim_trans (by rw [itself_itself]; exact e1) (sim_trans (by rw [itself_itself]; exact e2) e3)

/-! ### Values, traits and members with the same content are written alike -/

theorem shuffled_mem {a c : List Value} (h : Shuffled a c) {x : Value} (hx : x ∈ c) : x ∈ a := by
  cases hc : isCompound x with
  | true => exact (List.mem_filter.mp (h.1.mem_iff.mpr (List.mem_filter.mpr ⟨hx, hc⟩))).1
  | false => exact (h.2 x hc).mpr hx

theorem alike_object {a b : List (Str × Value)} (ha : AMap.Wf a) (hb : AMap.Wf b)
    (h1 : ∀ k x, (k, x) ∈ a → ∃ y, (k, y) ∈ b ∧ Alike x y) (h2 : ∀ k y, (k, y) ∈ b → ∃ x, (k, x) ∈ a ∧ Alike x y) : Alike (.object a) (.object b) := by
  obtain ⟨c, h3, h4⟩ := mapRel_forall₂ ha hb (mapRel_of_mem ha hb h1 h2)
  intro G s s' p hs
  refine sim_object hs fun {G s s'} h => sim_each_perm h3 (fun x _ => sim_entry h.itself rfl (sim_self x.2)) ?_
  exact h4.imp fun x y hxy => sim_entry h hxy.1 fun {G s s' p} hs => hxy.2 G s s' p hs

mutual
  theorem alike_content {v w : Value} (h : SameContent v w) (hv : v.Wf) (hw : w.Wf) : Alike v w :=
    match h with
    | .string _ => alike_self _
    | .number _ => alike_self _
    | .boolean _ => alike_self _
    | .null => alike_self _
    | .array c h1 h2 => by
      cases hv with | array hv =>
      cases hw with | array hw =>
      have h3 := alike_items h2 (fun x hx => hv x (shuffled_mem h1 hx)) hw
      intro G s s' p hs
      rw [fromValue, fromValue]
      refine sim_fresh fun n n' _ => sim_seq (sim_insert (hs.along n n') (nodeRel_new n n')) (sim_seq (sim_insert (nodeRel_new n n') rfl) ?_)
      rw [fromItems_each, fromItems_each]
      refine sim_trans (sim_shuffled _ (nodeRel_new n n').itself h1) (sim_each (h3.imp fun x y hxy => hxy _ _ _ _ (nodeRel_new n n')))
    | .object f k h1 h2 h3 h4 => by
      cases hv with | object ha hv =>
      cases hw with | object hb hw =>
      have e1 := fun e he => alike_content (h2 e he) (hv e he) (hw _ (h1 e he))
      have e2 := fun e he => alike_content (h4 e he) (hv _ (h3 e he)) (hw e he)
      exact alike_object ha hb (fun i x hx => ⟨_, h1 (i, x) hx, e1 (i, x) hx⟩) (fun i y hy => ⟨_, h3 (i, y) hy, e2 (i, y) hy⟩)
  theorem alike_items {a b : List Value} (h : SameItems a b) (ha : ∀ x ∈ a, x.Wf) (hb : ∀ x ∈ b, x.Wf) : List.Forall₂ Alike a b :=
    match h with
    | .nil => .nil
    | .cons h1 h2 => .cons (alike_content h1 (ha _ (by simp)) (hb _ (by simp)))
      (alike_items h2 (fun x hx => ha x (by simp [hx])) (fun x hx => hb x (by simp [hx])))
end

/-- Traits with the same content are written alike. -/
theorem content_traits {a b : Traits} (ha : WfTraits a) (hb : WfTraits b) (h : TraitContent a b) {G : Nat → Nat → Prop} {s s' : Node} (hs : NodeRel G s s') :
    Sim G (fromTraits s a) (fromTraits s' b) := by
  have hm : MapRel (OptRel Alike) a b := by
    intro k
    have h1 := h k
    generalize hx : AMap.get a k = x at h1
    generalize hy : AMap.get b k = y at h1
    cases h1 with
    | none => exact .none
    | some h2 =>
      cases h2 with
      | none => exact .some .none
      | some h3 => exact .some (.some (alike_content h3 (ha.values _ _ hx) (hb.values _ _ hy)))
  obtain ⟨c, h1, h2⟩ := mapRel_forall₂ ha.nodup hb.nodup hm
  refine sim_each_perm h1 (fun x _ => sim_trait hs.itself rfl (optRel_self (fun v {_ _ _ _} h => sim_self v h) x.2)) (h2.imp fun x y hxy => sim_trait hs hxy.1 ?_)
  have := hxy.2
  generalize x.2 = u at this
  generalize y.2 = v at this
  cases this with
  | none => exact .none
  | some h => exact .some fun {G s s' p} hs => h G s s' p hs

/-- Members with the same content are written alike. -/
theorem content_member {a b : MemberShape} (ha : WfTraits a.traits) (hb : WfTraits b.traits) (h : MemberContent a b) {G : Nat → Nat → Prop} {s s' : Node}
    (hs : NodeRel G s s') : Sim G (fromMember s a) (fromMember s' b) := by
  refine sim_fresh fun n n' _ => sim_seq (sim_insert (hs.along n n') (nodeRel_new n n')) (sim_seq (sim_insert (nodeRel_new n n') ?_)
    (sim_seq (sim_insert (nodeRel_new n n') ?_) (content_traits ha hb h.2.2 (nodeRel_new n n'))))
  · rw [h.1]; rfl
  · rw [h.2.1]; rfl

theorem content_members {a b : AMap Str MemberShape} (ha : WfMembers a) (hb : WfMembers b) (h : MapRel MemberContent a b) {G : Nat → Nat → Prop}
    {s s' : Node} (hs : NodeRel G s s') : Sim G (each (fromMember s) (AMap.values a)) (each (fromMember s') (AMap.values b)) := by
  obtain ⟨c, h1, h2⟩ := mapRel_forall₂ ha.nodup hb.nodup h
  unfold AMap.values
  rw [each_map, each_map]
  have wa : ∀ e ∈ a, WfTraits e.2.traits := fun e he => ha.traits e.1 e.2 (AMap.get_of_mem ha.nodup he)
  have wb : ∀ e ∈ b, WfTraits e.2.traits := fun e he => hb.traits e.1 e.2 (AMap.get_of_mem hb.nodup he)
  refine sim_each_perm h1 (fun x hx => sim_member (wa x hx) (wa x hx) ⟨rfl, rfl, sameTraits_self _⟩ hs.itself) ?_
  refine (forall₂_and_mem h2).imp fun x y hxy => content_member (wa x (h1.mem_iff.mpr hxy.1)) (wb y hxy.2.1) hxy.2.2.2 hs

theorem content_targets {G : Nat → Nat → Prop} {s s' : Node} (hs : NodeRel G s s') (p : Iri) {xs ys : List ShapeID} (h : SameElements xs ys) :
    Sim G (targets s p xs) (targets s' p ys) := sim_inserts hs p (fun x => named (shapeToIri x)) (fun _ _ => rfl) h

theorem content_option {G : Nat → Nat → Prop} {s s' : Node} (hs : NodeRel G s s') (p : Iri) {x y : Option ShapeID} (h : x = y) :
    Sim G (targets s p x.toList) (targets s' p y.toList) := by
  subst h; exact sim_targets hs p _

/-- Shapes with the same content are written alike, if the identifiers of resources are enumerated in the same order. -/
theorem content_shape {a b : TopLevelShape} (ha : WfShape a) (hb : WfShape b) (h : ShapeContent a b) (hi : identifiersOf a.body = identifiersOf b.body)
    {G : Nat → Nat → Prop} {r r' : Node} (hr : NodeRel G r r') : Sim G (shapeEmit r a) (shapeEmit r' b) := by
  obtain ⟨id, ts, body⟩ := a
  obtain ⟨id', ts', body'⟩ := b
  obtain ⟨rfl, ht, hb'⟩ := h
  have ht := content_traits ha.traits hb.traits ht (G := G) (s := .iri (shapeToIri id)) (s' := .iri (shapeToIri id)) rfl
  have ho : NodeRel G (.iri (shapeToIri id)) (.iri (shapeToIri id)) := rfl
  have wa := ha.body
  have wb := hb.body
  cases hb' with
  | simple => exact sim_seq (sim_declare hr id _) ht
  | list hm => exact sim_seq (sim_declare hr id _) (sim_seq (content_member wa wb hm ho) ht)
  | set hm => exact sim_seq (sim_declare hr id _) (sim_seq (content_member wa wb hm ho) ht)
  | map hk hv => exact sim_seq (sim_declare hr id _) (sim_seq (content_member wa.1 wb.1 hk ho) (sim_seq (content_member wa.2 wb.2 hv ho) ht))
  | struct hm => exact sim_seq (sim_declare hr id _) (sim_seq (content_members wa wb hm ho) ht)
  | union hm => exact sim_seq (sim_declare hr id _) (sim_seq (content_members wa wb hm ho) ht)
  | service h1 h2 h3 =>
    refine sim_seq (sim_declare hr id _) (sim_seq (sim_insert ho ?_) (sim_seq (content_targets ho _ h2) (sim_seq (content_targets ho _ h3) ht)))
    rw [h1]; rfl
  | operation h1 h2 h3 => exact sim_seq (sim_declare hr id _) (sim_seq (content_option ho _ h1) (sim_seq (content_option ho _ h2) (sim_seq (content_targets ho _ h3) ht)))
  | resource hm h1 h2 h3 h4 =>
    simp only [identifiersOf] at hi
    refine sim_seq (sim_declare hr id _) (sim_seq ?_ (sim_seq (content_option ho _ (h1 .create)) (sim_seq (content_option ho _ (h1 .put))
      (sim_seq (content_option ho _ (h1 .update)) (sim_seq (content_option ho _ (h1 .delete)) (sim_seq (content_option ho _ (h1 .read))
      (sim_seq (content_option ho _ (h1 .list)) (sim_seq (content_targets ho _ h2) (sim_seq (content_targets ho _ h3) (sim_seq (content_targets ho _ h4) ht))))))))))
    rw [hi]; exact sim_identifiers ho _

/-! ### Models -/

/-- The shape is defined. -/
def isDefined (s : TopLevelShape) : Bool := match s.body with | .unresolved => false | _ => true

theorem isDefined_iff (s : TopLevelShape) : isDefined s = true ↔ s.body ≠ .unresolved := by
  unfold isDefined; cases s.body <;> simp

/-- Nothing is written for placeholders. -/
theorem each_defined (r : Node) (l : List TopLevelShape) : each (shapeEmit r) l = each (shapeEmit r) (l.filter isDefined) := by
  induction l with
  | nil => rfl
  | cons s l ih =>
    cases h : isDefined s with
    | true => rw [List.filter_cons, h, if_pos rfl, each, ih, each]
    | false =>
      have hs : shapeEmit r s = skip := by
        unfold isDefined at h; unfold shapeEmit
        cases hb : s.body <;> simp [hb] at h ⊢
      rw [List.filter_cons, h, if_neg (by decide), each, hs, ih]
      funext n; simp [Emit.seq, skip]

/-- The defined shapes of the model. -/
def definitions (m : Model) : AMap ShapeID TopLevelShape := m.shapes.filter fun e => isDefined e.2

theorem mem_definitions {m : Model} (hw : WfModel m) (id : ShapeID) (s : TopLevelShape) : (id, s) ∈ definitions m ↔ DefinesShape m id s := by
  unfold definitions DefinesShape Model.shape
  rw [List.mem_filter, isDefined_iff]
  exact ⟨fun h => ⟨AMap.get_of_mem hw.nodup h.1, h.2⟩, fun h => ⟨AMap.mem_of_get h.1, h.2⟩⟩

theorem wf_definitions {m : Model} (hw : WfModel m) : AMap.Wf (definitions m) :=
  List.Nodup.sublist ((List.filter_sublist).map _) hw.nodup

theorem each_definitions (r : Node) (m : Model) : each (shapeEmit r) m.shapesList = each (fun e => shapeEmit r e.2) (definitions m) := by
  rw [each_defined, ← each_map (shapeEmit r) (fun e : ShapeID × TopLevelShape => e.2)]
  congr 1
  unfold Model.shapesList AMap.values definitions
  rw [List.filter_map]; rfl

/-- Models with the same content are written alike, if the identifiers of resources are enumerated in the same order. -/
theorem content_model {a b : Model} (ha : WfModel a) (hb : WfModel b) (h : ModelContent a b)
    (hi : ∀ id s t, DefinesShape a id s → DefinesShape b id t → identifiersOf s.body = identifiersOf t.body) {G : Nat → Nat → Prop} {r r' : Node}
    (hr : NodeRel G r r') : Sim G (each (shapeEmit r) a.shapesList) (each (shapeEmit r') b.shapesList) := by
  rw [each_definitions, each_definitions]
  have hm : MapRel ShapeContent (definitions a) (definitions b) := by
    refine mapRel_of_mem (wf_definitions ha) (wf_definitions hb) (fun id s hs => ?_) (fun id t ht => ?_)
    · obtain ⟨t, h1, h2⟩ := (h.shapes id).1 s ((mem_definitions ha _ _).mp hs)
      exact ⟨t, (mem_definitions hb _ _).mpr h1, h2⟩
    · obtain ⟨s, h1, h2⟩ := (h.shapes id).2 t ((mem_definitions hb _ _).mp ht)
      exact ⟨s, (mem_definitions ha _ _).mpr h1, h2⟩
  obtain ⟨c, h1, h2⟩ := mapRel_forall₂ (wf_definitions ha) (wf_definitions hb) hm
  have ga : ∀ e ∈ definitions a, DefinesShape a e.1 e.2 := fun e he => (mem_definitions ha _ _).mp he
  have gb : ∀ e ∈ definitions b, DefinesShape b e.1 e.2 := fun e he => (mem_definitions hb _ _).mp he
  refine sim_each_perm h1 (fun x hx => sim_shape (ha.shapes _ _ (ga x hx).1) (ha.shapes _ _ (ga x hx).1) (sameShape_self _) rfl hr.itself) ?_
  refine (forall₂_and_mem h2).imp fun x y hxy => ?_
  have hx := ga x (h1.mem_iff.mpr hxy.1)
  have hy := gb y hxy.2.1
  refine content_shape (ha.shapes _ _ hx.1) (hb.shapes _ _ hy.1) hxy.2.2.2 (hi x.1 _ _ hx ?_) hr
  rw [hxy.2.2.1]; exact hy

/-- **C69** The graphs of two models are the same, up to the labels of blank nodes, if and only if the models have the same content (but
for the order of lists and the repetitions of their elements that are not arrays or objects, the renamed shapes of services, metadata and
placeholders) and enumerate the identifiers of each resource in the same order. -/
theorem C69_tells (a b : Model) (modelIri : Option Iri) (ha : WfModel a) (hb : WfModel b) (hva : ValidModel a) (hvb : ValidModel b) (hna : MapNames a)
    (hnb : MapNames b) (hra : ∀ id s, DefinesShape a id s → modelIri ≠ some (shapeToIri id)) (hrb : ∀ id s, DefinesShape b id s → modelIri ≠ some (shapeToIri id)) :
    ∃ g g', modelToRdf a modelIri = .ok g ∧ modelToRdf b modelIri = .ok g' ∧
      (SameGraph g g' ↔ ModelContent a b ∧
        ∀ id s t, DefinesShape a id s → DefinesShape b id t → identifiersOf s.body = identifiersOf t.body) := by
  obtain ⟨g, root, h1, h2, -⟩ := C68_describes a modelIri ha hva hra
  obtain ⟨g', root', h3, h4, -⟩ := C68_describes b modelIri hb hvb hrb
  refine ⟨g, g', h1, h3, fun hs => ⟨?_, ?_⟩, fun hc => ?_⟩
  · exact C69_same_graph a b modelIri g g' ha hb hva hvb hna hnb hra hrb h1 h3 hs
  · obtain ⟨f, hf⟩ := hs
    intro id s t hs ht
    have h5 := model_relabel (f := f) hf h2
    obtain ⟨-, -, v2⟩ := hva id s hs.1
    obtain ⟨-, -, v4⟩ := hvb id t ht.1
    obtain ⟨-, -, -, -, ⟨ids, ids', hi, hi', his⟩, -⟩ := shape_parts ((ha.key id s hs.1).trans (hb.key id t ht.1).symm)
      (h5.shapes id s hs) (h4.shapes id t ht) v2 v4
    have hid : ∀ {k : ShapeKind}, ValidKind k → WfKind k → ∀ e ∈ identifiersOf k, e.2.Valid := by
      intro k hk hw e he
      cases k <;> simp only [identifiersOf, List.not_mem_nil] at he
      exact (hk.1 e.1 e.2 (AMap.get_of_mem hw he)).2
    exact identifiers_order hi hi' his (hid v2 (ha.shapes id s hs.1).body) (hid v4 (hb.shapes id t ht.1).body)
  · obtain ⟨x, y, e1, e2, e3⟩ := graph_of_sim hc.1.version (fun hr => content_model ha hb hc.1 hc.2 hr) modelIri
    rw [h1] at e1; cases e1
    rw [h3] at e2; cases e2
    exact e3

/-! ### Examples -/

/-- A string shape with a trait whose value is this array. -/
def exTagged (vs : List Value) : Model := ⟨.v10, [], [(sid %s"S", ⟨sid %s"S", [(sid %s"t", some (.array vs))], .simple .string⟩)]⟩

theorem exTagged_shape {vs : List Value} {id : ShapeID} {s : TopLevelShape} (h : (exTagged vs).shape id = some s) :
    id = sid %s"S" ∧ s = ⟨sid %s"S", [(sid %s"t", some (.array vs))], .simple .string⟩ := by
  have := AMap.mem_of_get h
  simpa [exTagged] using this

theorem exTagged_ok {vs : List Value} (hw : ∀ v ∈ vs, v.Wf) : WfModel (exTagged vs) ∧ ValidModel (exTagged vs) ∧ MapNames (exTagged vs) := by
  refine ⟨⟨AMap.wf_nil, (by intro k v h; cases h), (by simp [AMap.Wf, exTagged, AMap.keys]), fun id s h => ?_, fun id s h hm => ?_, fun id s h => ?_⟩,
    fun id s h => ?_, fun id s k v h hb => ?_⟩
  all_goals obtain ⟨rfl, rfl⟩ := exTagged_shape h
  · rfl
  · exact absurd hm (by decide)
  · refine ⟨⟨by simp [AMap.Wf, AMap.keys], fun k v hk => ?_⟩, trivial⟩
    have := AMap.mem_of_get hk
    simp only [List.mem_singleton, Prod.mk.injEq, Option.some.injEq] at this
    rw [this.2]
    exact .array hw
  · refine ⟨valid_sid rfl, fun k v hk => ?_, trivial⟩
    have := AMap.mem_of_get hk
    simp only [List.mem_singleton, Prod.mk.injEq] at this
    rw [this.1]
    exact ⟨valid_sid rfl, rfl⟩
  · cases hb

theorem exTagged_content {vs ws : List Value} : ModelContent (exTagged vs) (exTagged ws) ↔ SameContent (.array vs) (.array ws) := by
  have hd : ∀ us, DefinesShape (exTagged us) (sid %s"S") ⟨sid %s"S", [(sid %s"t", some (.array us))], .simple .string⟩ := fun us => ⟨rfl, nofun⟩
  constructor
  · intro h
    obtain ⟨t, h1, h2⟩ := (h.shapes (sid %s"S")).1 _ (hd vs)
    obtain ⟨-, rfl⟩ := exTagged_shape h1.1
    have h3 := h2.traits (sid %s"t")
    cases h3 with
    | some h4 => cases h4 with
      | some h5 => exact h5
  · intro h
    have hs : ShapeContent ⟨sid %s"S", [(sid %s"t", some (.array vs))], .simple .string⟩ ⟨sid %s"S", [(sid %s"t", some (.array ws))], .simple .string⟩ := by
      refine ⟨rfl, fun k => ?_, .simple⟩
      simp only [AMap.get_cons, AMap.get_nil]
      split
      · exact .some (.some h)
      · exact .none
    refine ⟨rfl, fun id => ⟨fun s h1 => ?_, fun s h1 => ?_⟩⟩
    all_goals obtain ⟨rfl, rfl⟩ := exTagged_shape h1.1
    · exact ⟨_, hd ws, hs⟩
    · exact ⟨_, hd vs, hs⟩

theorem exTagged_graph {vs ws : List Value} (hv : ∀ v ∈ vs, v.Wf) (hw : ∀ v ∈ ws, v.Wf) :
    ∃ g g', modelToRdf (exTagged vs) none = .ok g ∧ modelToRdf (exTagged ws) none = .ok g' ∧ (SameGraph g g' ↔ SameContent (.array vs) (.array ws)) := by
  obtain ⟨a1, a2, a3⟩ := exTagged_ok hv
  obtain ⟨b1, b2, b3⟩ := exTagged_ok hw
  obtain ⟨g, g', h1, h2, h3⟩ := C69_tells (exTagged vs) (exTagged ws) none a1 b1 a2 b2 a3 b3 (by intros; nofun) (by intros; nofun)
  refine ⟨g, g', h1, h2, h3.trans ⟨fun h => exTagged_content.mp h.1, fun h => ⟨exTagged_content.mpr h, fun id s t hs ht => ?_⟩⟩⟩
  obtain ⟨rfl, rfl⟩ := exTagged_shape hs.1
  obtain ⟨-, rfl⟩ := exTagged_shape ht.1
  rfl

/-- **C69** An array of strings is told up to the order and the repetitions of its elements, since the statements of a graph are a set. An
array of arrays is told up to the order of its elements, not their number, since each has a node of its own. -/
theorem C69_tells_example :
    (∃ g g', modelToRdf (exTagged [.string %s"a", .string %s"b", .string %s"a"]) none = .ok g ∧
      modelToRdf (exTagged [.string %s"b", .string %s"a"]) none = .ok g' ∧ SameGraph g g') ∧
    (∃ g g', modelToRdf (exTagged [.array [.string %s"a"], .array []]) none = .ok g ∧
      modelToRdf (exTagged [.array [], .array [.string %s"a"]]) none = .ok g' ∧ SameGraph g g') ∧
    (∃ g g', modelToRdf (exTagged [.array [], .array []]) none = .ok g ∧ modelToRdf (exTagged [.array []]) none = .ok g' ∧ ¬ SameGraph g g') := by
  have w0 : (Value.array []).Wf := .array nofun
  have w1 : (Value.array [.string %s"a"]).Wf := .array fun v hv => by rw [List.mem_singleton.mp hv]; exact .string
  refine ⟨?_, ?_, ?_⟩
  · obtain ⟨g, g', h1, h2, h3⟩ := exTagged_graph (vs := [.string %s"a", .string %s"b", .string %s"a"]) (ws := [.string %s"b", .string %s"a"])
      (fun v hv => by simp at hv; rcases hv with rfl | rfl | rfl <;> exact .string) (fun v hv => by simp at hv; rcases hv with rfl | rfl <;> exact .string)
    refine ⟨g, g', h1, h2, h3.mpr ?_⟩
    rw [sameContent_array]
    exact ⟨fun x _ => by simp only [List.mem_cons, List.not_mem_nil, or_false]; tauto, [], .refl _, .nil⟩
  · obtain ⟨g, g', h1, h2, h3⟩ := exTagged_graph (vs := [.array [.string %s"a"], .array []]) (ws := [.array [], .array [.string %s"a"]])
      (fun v hv => by simp at hv; rcases hv with rfl | rfl <;> assumption) (fun v hv => by simp at hv; rcases hv with rfl | rfl <;> assumption)
    refine ⟨g, g', h1, h2, h3.mpr ?_⟩
    rw [sameContent_array]
    refine ⟨fun x _ => by simp only [List.mem_cons, List.not_mem_nil, or_false]; tauto, _, .swap _ _ _, ?_⟩
    exact .cons (.array [] ⟨.refl _, fun _ _ => Iff.rfl⟩ .nil) (.cons (.array _ ⟨.refl _, fun _ _ => Iff.rfl⟩ (.cons (.string _) .nil)) .nil)
  · obtain ⟨g, g', h1, h2, h3⟩ := exTagged_graph (vs := [.array [], .array []]) (ws := [.array []])
      (fun v hv => by simp at hv; subst hv; assumption) (fun v hv => by simp at hv; subst hv; assumption)
    refine ⟨g, g', h1, h2, fun h => ?_⟩
    have := h3.mp h
    rw [sameContent_array] at this
    obtain ⟨-, c, hc, hf⟩ := this
    have e1 := hc.length_eq
    have e2 := hf.length_eq
    rw [← e1] at e2
    revert e2
    decide

end Rdf
end Verif
