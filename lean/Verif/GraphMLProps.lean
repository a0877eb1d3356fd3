/-
C72-C75: the document the GraphML writer writes for a model.
-/
import Verif.GraphMLText
import Verif.RdfReader
import Verif.Decimal

namespace Verif
open Spec
namespace GraphML
open Spec.Xml
open Spec.GraphML (data nodeOf edge edgesOf definedShapes edgeCount PlainVersions typeOf Items attributes EndsAreNodes KeysDeclared Within)

theorem safe_simple (s : Simple) : ∀ c ∈ s.display, Safe c := by
  cases s <;> unfold Safe <;> decide

theorem safe_lit {s : Str} (h : s.all identChar = true) : ∀ c ∈ s, Safe c := fun c hc => .inl (List.all_eq_true.mp h c hc)

theorem safe_type (b : ShapeKind) : ∀ c ∈ typeOf b, Safe c := by
  cases b with
  | simple s => exact safe_simple s
  | _ => exact safe_lit rfl

theorem valid_members {b : ShapeKind} (hw : WfKind b) (hv : ValidKind b) : ∀ e ∈ Spec.GraphML.membersOf b, (∀ c ∈ e.1, Safe c) ∧ e.2.Valid := by
  have key : ∀ {ms : AMap Str MemberShape}, WfMembers ms → (∀ k m, ms.get k = some m → IsIdentifier k ∧ ValidMember m) →
      ∀ e ∈ ms.map (fun (e : Str × MemberShape) => (e.1, e.2.target)), (∀ c ∈ e.1, Safe c) ∧ e.2.Valid := by
    intro ms hw hv e he
    obtain ⟨⟨k, m⟩, hm, rfl⟩ := List.mem_map.mp he
    have := hv k m (AMap.get_of_mem hw.nodup hm)
    exact ⟨safe_ident this.1, this.2.1⟩
  have opt : ∀ {n : Str} {o : Option ShapeID}, (∀ c ∈ n, Safe c) → (∀ id, o = some id → id.Valid) →
      ∀ e ∈ o.toList.map (Prod.mk n), (∀ c ∈ e.1, Safe c) ∧ e.2.Valid := by
    intro n o hn ho e he
    obtain ⟨i, hi, rfl⟩ := List.mem_map.mp he
    exact ⟨hn, ho i (Option.mem_toList.mp hi)⟩
  have lst : ∀ {n : Str} {l : List ShapeID}, (∀ c ∈ n, Safe c) → (∀ id ∈ l, id.Valid) →
      ∀ e ∈ l.map (Prod.mk n), (∀ c ∈ e.1, Safe c) ∧ e.2.Valid := by
    intro n o hn ho e he
    obtain ⟨i, hi, rfl⟩ := List.mem_map.mp he
    exact ⟨hn, ho i hi⟩
  have app : ∀ {a b : List (Str × ShapeID)}, (∀ e ∈ a, (∀ c ∈ e.1, Safe c) ∧ e.2.Valid) → (∀ e ∈ b, (∀ c ∈ e.1, Safe c) ∧ e.2.Valid) →
      ∀ e ∈ a ++ b, (∀ c ∈ e.1, Safe c) ∧ e.2.Valid := by
    intro a b ha hb e he
    rcases List.mem_append.mp he with h | h
    · exact ha e h
    · exact hb e h
  cases b with
  | struct ms => exact key hw hv
  | union ms => exact key hw hv
  | simple s => intro e he; cases he
  | unresolved => intro e he; cases he
  | list m => intro e he; rw [List.mem_singleton.mp he]; exact ⟨safe_lit rfl, hv.1⟩
  | set m => intro e he; rw [List.mem_singleton.mp he]; exact ⟨safe_lit rfl, hv.1⟩
  | map k v =>
    intro e he
    rcases List.mem_cons.mp he with rfl | he
    · exact ⟨safe_lit rfl, hv.1.1⟩
    · rw [List.mem_singleton.mp he]; exact ⟨safe_lit rfl, hv.2.1⟩
  | service s => exact app (lst (safe_lit rfl) hv.2.1) (lst (safe_lit rfl) hv.2.2.1)
  | operation o =>
    exact app (app (opt (safe_lit rfl) hv.1) (opt (safe_lit rfl) hv.2.1)) (lst (safe_lit rfl) hv.2.2)
  | resource r =>
    have hl := hv.2.1
    exact app (app (app (app (app (app (app (app (opt (safe_lit rfl) (hl .create)) (opt (safe_lit rfl) (hl .put)))
      (opt (safe_lit rfl) (hl .read))) (opt (safe_lit rfl) (hl .update))) (opt (safe_lit rfl) (hl .delete)))
      (opt (safe_lit rfl) (hl .list))) (lst (safe_lit rfl) hv.2.2.1)) (lst (safe_lit rfl) hv.2.2.2.1))
      (lst (safe_lit rfl) hv.2.2.2.2)

theorem items_ok {m : Model} (hw : WfModel m) (hv : ValidModel m) (hp : PlainVersions m) : ∀ i ∈ m.shapesList.flatMap itemsOf, Ok i := by
  intro i hi
  obtain ⟨s, hs, hi⟩ := List.mem_flatMap.mp hi
  have hs := (mem_shapes hw).mp hs
  obtain ⟨hid, hts, hb⟩ := hv _ _ hs
  obtain ⟨hwt, hwb⟩ := hw.shapes _ _ hs
  unfold itemsOf at hi
  split at hi
  · cases hi
  · rcases List.mem_cons.mp hi with rfl | hi
    · refine ⟨safe_display hid, safe_type _, fun x hx => ?_⟩
      cases h : s.body <;> rw [h] at hx <;> try cases hx
      exact hp _ _ _ hs h
    · rcases List.mem_append.mp hi with hi | hi
      · obtain ⟨⟨t, v⟩, ht, rfl⟩ := List.mem_map.mp hi
        exact ⟨safe_display hid, safe_display (hts t v (AMap.get_of_mem hwt.nodup ht)).1, safe_lit rfl, safe_lit rfl⟩
      · obtain ⟨e, he, rfl⟩ := List.mem_map.mp hi
        rw [members_eq hwb] at he
        obtain ⟨h1, h2⟩ := valid_members hwb hb e he
        exact ⟨safe_display hid, safe_display h2, safe_lit rfl, h1⟩

/-! ### The ids of edges -/

theorem showNat_inj {a b : Nat} (h : showNat a = showNat b) : a = b := by
  rw [← digitsValue_showNat a, h, digitsValue_showNat]

theorem mem_ids {n k : Nat} {x : Str} : x ∈ ids n k ↔ ∃ i, n ≤ i ∧ i < n + k ∧ x = %s"e" ++ showNat (i % 65536) := by
  induction k generalizing n with
  | zero => simp only [ids, List.not_mem_nil, false_iff]; rintro ⟨i, h1, h2, -⟩; omega
  | succ k ih =>
    rw [ids, List.mem_cons, ih]
    constructor
    · rintro (rfl | ⟨i, h1, h2, h3⟩)
      · exact ⟨n, Nat.le_refl _, by omega, rfl⟩
      · exact ⟨i, by omega, by omega, h3⟩
    · rintro ⟨i, h1, h2, h3⟩
      by_cases h : i = n
      · exact .inl (h ▸ h3)
      · exact .inr ⟨i, by omega, by omega, h3⟩

theorem nodup_ids {n k : Nat} (h : n + k ≤ 65536) : (ids n k).Nodup := by
  induction k generalizing n with
  | zero => exact List.nodup_nil
  | succ k ih =>
    rw [ids, List.nodup_cons]
    refine ⟨fun hm => ?_, ih (by omega)⟩
    obtain ⟨i, h1, h2, h3⟩ := mem_ids.mp hm
    have := showNat_inj (List.append_cancel_left h3)
    omega

theorem not_nodup_ids {n k : Nat} (h : 65536 < k) : ¬ (ids n k).Nodup := by
  cases k with
  | zero => omega
  | succ k =>
    rw [ids, List.nodup_cons]
    rintro ⟨h1, -⟩
    refine h1 (mem_ids.mpr ⟨n + 65536, by omega, by omega, ?_⟩)
    rw [Nat.add_mod_right]

theorem attributes_perm {tag name : Str} {a b : List Node} (h : a.Perm b) : (attributes tag name a).Perm (attributes tag name b) :=
  h.filterMap _

theorem attributes_append {tag name : Str} (a b : List Node) : attributes tag name (a ++ b) = attributes tag name a ++ attributes tag name b :=
  List.filterMap_append ..

theorem attributes_edges_nodes (name : Str) (l : List TopLevelShape) : attributes %s"edge" name (l.map nodeOf) = [] := by
  induction l with
  | nil => rfl
  | cons s l ih => exact ih

theorem attributes_nodes_nodes (l : List TopLevelShape) : attributes %s"node" %s"id" (l.map nodeOf) = l.map fun s => s.id.display := by
  induction l with
  | nil => rfl
  | cons s l ih => exact congrArg _ ih

theorem attributes_nodes_edges (ids : List Str) (es : List (Str × Str × Str × Str)) (name : Str) :
    attributes %s"node" name (List.zipWith edge ids es) = [] := by
  induction ids generalizing es with
  | nil => rfl
  | cons i ids ih =>
    cases es with
    | nil => rfl
    | cons e es => exact ih es

theorem attributes_edges_edges (ids : List Str) (es : List (Str × Str × Str × Str)) (h : ids.length = es.length) :
    attributes %s"edge" %s"id" (List.zipWith edge ids es) = ids ∧
    attributes %s"edge" %s"source" (List.zipWith edge ids es) = es.map (·.1) ∧
    attributes %s"edge" %s"target" (List.zipWith edge ids es) = es.map (·.2.1) := by
  induction ids generalizing es with
  | nil =>
    cases es with
    | nil => exact ⟨rfl, rfl, rfl⟩
    | cons e es => cases h
  | cons i ids ih =>
    cases es with
    | nil => cases h
    | cons e es =>
      obtain ⟨h1, h2, h3⟩ := ih es (by simpa using h)
      exact ⟨congrArg _ h1, congrArg _ h2, congrArg _ h3⟩

theorem edge_ids {m : Model} (hw : WfModel m) :
    (attributes %s"edge" %s"id" (cooked 0 (m.shapesList.flatMap itemsOf))).Perm (ids 0 (edgeCount m)) := by
  have h1 := attributes_perm (tag := %s"edge") (name := %s"id") (cooked_perm 0 (m.shapesList.flatMap itemsOf))
  rw [nodeItems_shapes, attributes_append, attributes_edges_nodes, List.nil_append,
    (attributes_edges_edges _ _ ((length_ids _ _).trans (length_edgeItems _).symm)).1, edges_model hw] at h1
  exact h1

/-! ### The theorems -/

/-- **C72** If the versions of services need no escapes and the model has at most 65535 edges, then a GraphML document is written that
describes the model: with a node for every defined shape, and an edge, with an id of its own, for every trait and for every member. It
can be read as a document in one way only. -/
theorem C72_document (checked : Bool) (m : Model) (hw : WfModel m) (hv : ValidModel m) (hp : PlainVersions m) (hc : edgeCount m ≤ 65535) :
    ∃ text tree items, write checked m = .ok text ∧ Document text tree ∧
      withoutLayout tree = Spec.GraphML.document m.version.display items ∧ Items m items ∧ (attributes %s"edge" %s"id" items).Nodup ∧
      ∀ tree', Document text tree' → tree' = tree := by
  have hd := document_text (m := m) (items_ok hw hv hp)
  refine ⟨_, _, _, write_ok (by rw [edges_model hw]; omega), hd, withoutLayout_root _ _, items_model hw 0, ?_, fun t ht => XmlLemmas.document_unique ht hd⟩
  exact (edge_ids hw).nodup_iff.mpr (nodup_ids (by omega))

/-- **C73** A program with overflow checks panics if and only if the model has more edges; it never fails otherwise. -/
theorem C73_panics (m : Model) (hw : WfModel m) :
    (write true m = .error .panic ↔ 65535 < edgeCount m) ∧ (edgeCount m ≤ 65535 → ∃ text, write true m = .ok text) := by
  have h2 : edgeCount m ≤ 65535 → ∃ text, write true m = .ok text := fun h => ⟨_, write_ok (by rw [edges_model hw]; omega)⟩
  refine ⟨⟨fun h => ?_, fun h => write_panic (by rw [edges_model hw]; exact h)⟩, h2⟩
  apply Classical.byContradiction
  intro hc
  obtain ⟨t, ht⟩ := h2 (by omega)
  rw [h] at ht; cases ht

/-- **C73** A program without them always writes a document that describes the model; all edges have ids of their own, as GraphML
demands, if and only if there are at most 65536. -/
theorem C73_shared_ids (m : Model) (hw : WfModel m) (hv : ValidModel m) (hp : PlainVersions m) :
    ∃ text tree items, write false m = .ok text ∧ Document text tree ∧ (∀ tree', Document text tree' → tree' = tree) ∧
      withoutLayout tree = Spec.GraphML.document m.version.display items ∧ Items m items ∧
      ((attributes %s"edge" %s"id" items).Nodup ↔ edgeCount m ≤ 65536) := by
  have hd := document_text (m := m) (items_ok hw hv hp)
  refine ⟨_, _, _, write_ok (by simp), hd, fun t ht => XmlLemmas.document_unique ht hd, withoutLayout_root _ _, items_model hw 0, ?_⟩
  rw [(edge_ids hw).nodup_iff]
  constructor
  · intro h
    apply Classical.byContradiction
    intro hc
    exact not_nodup_ids (by omega) h
  · intro h
    exact nodup_ids (by omega)

/-! ### Reading the document -/

/-- What the edge of an element says. -/
def edgeOf : Node → Option (Str × Str × Str × Str)
  | .element _ [_, (_, s), (_, t)] [.element _ [(_, k)] c] => some (s, t, k, match c with | [.text v] => v | _ => [])
  | _ => none

theorem edgeOf_nodes (l : List TopLevelShape) : (l.map nodeOf).filterMap edgeOf = [] := by
  induction l with
  | nil => rfl
  | cons s l ih => exact ih

theorem edgeOf_edges (ids : List Str) (es : List (Str × Str × Str × Str)) (h : ids.length = es.length) :
    (List.zipWith edge ids es).filterMap edgeOf = es := by
  induction ids generalizing es with
  | nil =>
    cases es with
    | nil => rfl
    | cons e es => cases h
  | cons i ids ih =>
    cases es with
    | nil => cases h
    | cons e es =>
      have he : edgeOf (edge i e) = some e := by
        obtain ⟨a, b, c, d⟩ := e
        cases d <;> rfl
      rw [List.zipWith_cons_cons, List.filterMap_cons, he]
      exact congrArg _ (ih es (by simpa using h))

theorem items_edges {m : Model} {items : List Node} (h : Items m items) : (items.filterMap edgeOf).Perm ((definedShapes m).flatMap edgesOf) := by
  obtain ⟨ids, es, h1, h2, h3⟩ := h
  have := h3.filterMap edgeOf
  rw [List.filterMap_append, edgeOf_nodes, List.nil_append, edgeOf_edges _ _ h2] at this
  exact this.trans h1

/-- The nodes. -/
def isNode : Node → Bool
  | .element t _ _ => t == %s"node"
  | _ => false

theorem items_nodes {m : Model} {items : List Node} (h : Items m items) : (items.filter isNode).Perm ((definedShapes m).map nodeOf) := by
  obtain ⟨ids, es, h1, h2, h3⟩ := h
  have := h3.filter isNode
  have e1 : ((definedShapes m).map nodeOf).filter isNode = (definedShapes m).map nodeOf :=
    List.filter_eq_self.mpr fun x hx => by obtain ⟨s, -, rfl⟩ := List.mem_map.mp hx; rfl
  have e2 : (List.zipWith edge ids es).filter isNode = [] :=
    List.filter_eq_nil_iff.mpr fun x hx => by
      obtain ⟨i, e, rfl⟩ : ∃ i e, x = edge i e := by
        clear h3 this h1 h2
        induction ids generalizing es with
        | nil => cases hx
        | cons i ids ih =>
          cases es with
          | nil => cases hx
          | cons e es =>
            rcases List.mem_cons.mp hx with rfl | hx
            · exact ⟨_, _, rfl⟩
            · exact ih es hx
      exact Bool.noConfusion
  rw [List.filter_append, e1, e2, List.append_nil] at this
  exact this

theorem document_items {v v' : Str} {a b : List Node} (h : Spec.GraphML.document v a = Spec.GraphML.document v' b) : a = b := by
  unfold Spec.GraphML.document at h
  injection h with _ _ h
  injection List.append_cancel_left h with h
  injection h with _ _ h
  injection h with _ h

theorem defined_iff {m : Model} (hw : WfModel m) {s : TopLevelShape} : s ∈ definedShapes m ↔ DefinesShape m s.id s := by
  unfold definedShapes DefinesShape
  rw [List.mem_filter]
  have : s ∈ m.shapes.map (·.2) ↔ m.shape s.id = some s := mem_shapes hw
  rw [this]
  refine and_congr_right fun _ => ?_
  obtain ⟨id, ts, b⟩ := s
  cases b <;> simp [TopLevelShape.isUnresolved, ShapeKind.isUnresolved]

theorem edges_of {m : Model} (hw : WfModel m) (hv : ValidModel m) {id : ShapeID} {s : TopLevelShape} (hs : DefinesShape m id s) :
    ((definedShapes m).flatMap edgesOf).filter (fun e => e.1 == id.display) = edgesOf s := by
  classical
  have hid := hw.key _ _ hs.1
  have hn : (definedShapes m).Nodup := by
    have h1 : (m.shapes.map (·.2)).Nodup := by
      refine List.Nodup.of_map (·.id) ?_
      have : (m.shapes.map (·.2)).map (·.id) = m.shapes.map (·.1) := by
        rw [List.map_map]
        refine List.map_congr_left fun e he => ?_
        exact hw.key _ _ (AMap.get_of_mem hw.nodup he)
      rw [this]; exact hw.nodup
    exact h1.filter _
  have key : ∀ l : List TopLevelShape, (∀ x ∈ l, x.id.Valid) → (∀ x ∈ l, x.id = id → x = s) → l.Nodup →
      (l.flatMap edgesOf).filter (fun e => e.1 == id.display) = if s ∈ l then edgesOf s else [] := by
    intro l hl he hn
    have one : ∀ x : TopLevelShape, x.id.Valid → (x.id = id → x = s) →
        (edgesOf x).filter (fun e => e.1 == id.display) = if x = s then edgesOf s else [] := by
      intro x hx hxs
      by_cases h : x = s
      · rw [if_pos h, h]
        refine List.filter_eq_self.mpr fun e he => ?_
        obtain ⟨r, -, rfl⟩ := List.mem_map.mp he
        simp [hid]
      · rw [if_neg h]
        refine List.filter_eq_nil_iff.mpr fun e he => ?_
        obtain ⟨r, -, rfl⟩ := List.mem_map.mp he
        have : x.id.display ≠ id.display := fun h1 =>
          h (hxs (C03_display_injective _ _ hx (hv _ _ hs.1).1 h1))
        simpa using this
    induction l with
    | nil => simp
    | cons x l ih =>
      rw [List.flatMap_cons, List.filter_append, one x (hl x List.mem_cons_self) (he x List.mem_cons_self),
        ih (fun y hy => hl y (List.mem_cons_of_mem _ hy)) (fun y hy => he y (List.mem_cons_of_mem _ hy)) (List.nodup_cons.mp hn).2]
      by_cases h : x = s
      · subst h
        simp [(List.nodup_cons.mp hn).1]
      · have : ¬ s = x := fun h1 => h h1.symm
        simp [h, this]
  rw [key _ (fun x hx => (hv _ _ ((defined_iff hw).mp hx).1).1) (fun x hx he => ?_) hn, if_pos]
  · exact (defined_iff hw).mpr (by rw [hid]; exact hs)
  · have h1 := ((defined_iff hw).mp hx).1
    rw [he, hs.1] at h1
    exact (Option.some.inj h1).symm

/-- From an edge back to what it refers to. -/
def refOf (e : Str × Str × Str × Str) : Str × Str × Option ShapeID := (e.2.2.1, e.2.2.2, (ShapeID.fromStr e.2.1).toOption)

theorem valid_refs {s : TopLevelShape} (hw : WfShape s) (hv : ValidTraits s.traits ∧ ValidKind s.body) :
    ∀ r ∈ Spec.GraphML.referencesOf s, r.2.2.Valid := by
  intro r hr
  rcases List.mem_append.mp hr with hr | hr
  · obtain ⟨⟨t, v⟩, ht, rfl⟩ := List.mem_map.mp hr
    exact (hv.1 t v (AMap.get_of_mem hw.traits.nodup ht)).1
  · obtain ⟨e, he, rfl⟩ := List.mem_map.mp hr
    exact (valid_members hw.body hv.2 e he).2

theorem refOf_edges {s : TopLevelShape} (h : ∀ r ∈ Spec.GraphML.referencesOf s, r.2.2.Valid) :
    (edgesOf s).map refOf = (Spec.GraphML.referencesOf s).map fun r => (r.1, r.2.1, some r.2.2) := by
  unfold edgesOf
  rw [List.map_map]
  refine List.map_congr_left fun r hr => ?_
  simp only [Function.comp_apply, refOf, ShapeID.fromStr_display (h r hr)]
  rfl

theorem some_perm {a b : List (Str × Str × ShapeID)} (h : (a.map fun r => (r.1, r.2.1, some r.2.2)).Perm (b.map fun r => (r.1, r.2.1, some r.2.2))) :
    a.Perm b := by
  have h1 := h.filterMap fun x => x.2.2.map fun i => (x.1, x.2.1, i)
  have : ∀ l : List (Str × Str × ShapeID), (l.map fun r => (r.1, r.2.1, some r.2.2)).filterMap (fun x => x.2.2.map fun i => (x.1, x.2.1, i)) = l := by
    intro l
    induction l with
    | nil => rfl
    | cons r l ih => exact congrArg _ ih
  rwa [this, this] at h1

/-- **C72** The document tells everything about the shapes that has a place in it: if two models have the same document, then they define
the same shapes, of the same types, and (for services) versions, with the same traits, and the same members with the same targets. -/
theorem C72_same_document (checked checked' : Bool) (m m' : Model) (hw : WfModel m) (hw' : WfModel m') (hv : ValidModel m) (hv' : ValidModel m')
    (hp : PlainVersions m) (hp' : PlainVersions m') (text : Str) (h : write checked m = .ok text) (h' : write checked' m' = .ok text)
    (id : ShapeID) (s : TopLevelShape) (hs : DefinesShape m id s) :
    ∃ s', DefinesShape m' id s' ∧ nodeOf s = nodeOf s' ∧ (Spec.GraphML.referencesOf s).Perm (Spec.GraphML.referencesOf s') := by
  have ok : ∀ {c : Bool} {m : Model}, WfModel m → ValidModel m → PlainVersions m → write c m = .ok text →
      ∃ items, Document text (rawRoot m (m.shapesList.flatMap itemsOf)) ∧
        withoutLayout (rawRoot m (m.shapesList.flatMap itemsOf)) = Spec.GraphML.document m.version.display items ∧ Items m items := by
    intro c m hw hv hp h
    refine ⟨_, ?_, withoutLayout_root _ _, items_model hw 0⟩
    have hd := document_text (m := m) (items_ok hw hv hp)
    by_cases hc : c = true ∧ 65535 < edges (m.shapesList.flatMap itemsOf)
    · obtain ⟨rfl, hc⟩ := hc
      rw [write_panic hc] at h; cases h
    · rw [write_ok hc] at h
      rw [← Except.ok.inj h]; exact hd
  obtain ⟨items, h1, h2, h3⟩ := ok hw hv hp h
  obtain ⟨items', k1, k2, k3⟩ := ok hw' hv' hp' h'
  rw [XmlLemmas.document_unique h1 k1, k2] at h2
  have := document_items h2
  subst this
  have hn := (items_nodes h3).symm.trans (items_nodes k3)
  have he := (items_edges h3).symm.trans (items_edges k3)
  have hid := hw.key _ _ hs.1
  have : nodeOf s ∈ (definedShapes m').map nodeOf := hn.mem_iff.mp (List.mem_map.mpr ⟨s, (defined_iff hw).mpr (by rw [hid]; exact hs), rfl⟩)
  obtain ⟨s', hs', e⟩ := List.mem_map.mp this
  have hd' := (defined_iff hw').mp hs'
  have hi : s'.id = id := by
    unfold nodeOf at e
    injection e with _ e _
    injection e with e
    injection e with _ e
    rw [← hid]
    exact C03_display_injective _ _ (hv' _ _ hd'.1).1 (by rw [hid]; exact (hv _ _ hs.1).1) e
  rw [hi] at hd'
  refine ⟨s', hd', e.symm, ?_⟩
  have hf := he.filter fun e => e.1 == id.display
  rw [edges_of hw hv hs, edges_of hw' hv' hd'] at hf
  have hr := hf.map refOf
  rw [refOf_edges (valid_refs (hw.shapes _ _ hs.1) (hv _ _ hs.1).2), refOf_edges (valid_refs (hw'.shapes _ _ hd'.1) (hv' _ _ hd'.1).2)] at hr
  exact some_perm hr

/-! ### What is wrong with the document -/

/-- **C74** The key of the version of Smithy is not declared, so no document that is written follows GraphML. -/
theorem C74_keys (checked : Bool) (m : Model) (hw : WfModel m) (hv : ValidModel m) (hp : PlainVersions m) (text : Str)
    (h : write checked m = .ok text) (tree : Node) (hd : Document text tree) : ¬ KeysDeclared tree := by
  have hc : ¬ (checked = true ∧ 65535 < edges (m.shapesList.flatMap itemsOf)) := by
    rintro ⟨rfl, hc⟩
    rw [write_panic hc] at h; cases h
  rw [write_ok hc] at h
  have hd' := document_text (m := m) (items_ok hw hv hp)
  rw [Except.ok.inj h] at hd'
  rw [XmlLemmas.document_unique hd hd']
  intro hk
  obtain ⟨k, h1, h2⟩ := hk _ _ _ rfl [(%s"key", %s"smithy.version")] (Spec.GraphML.text m.version.display)
    (.child (c := rawGraph m (m.shapesList.flatMap itemsOf)) (by simp) (.child (c := data %s"smithy.version" m.version.display) (by simp) .here))
  have : k = %s"smithy.version" := (Option.some.inj h1).symm
  subst this
  have he : attributes %s"key" %s"id" [.text %s"\n    ", Spec.GraphML.key %s"smithy-version" %s"graph" %s"smithy.version" %s"string" [],
     .text %s"\n    ", Spec.GraphML.key %s"type" %s"node" %s"type" %s"string" [],
     .text %s"\n    ", Spec.GraphML.key %s"version" %s"node" %s"version" %s"string" [],
     .text %s"\n    ", Spec.GraphML.key %s"trait" %s"edge" %s"trait" %s"boolean" [],
     .text %s"\n    ", Spec.GraphML.key %s"member" %s"edge" %s"member" %s"string"
        [.text %s"\n        ", .element %s"default" [] [.text %s"member"], .text %s"\n    "],
     .text %s"\n    ", rawGraph m (m.shapesList.flatMap itemsOf), .text %s"\n"] = [%s"smithy-version", %s"type", %s"version", %s"trait", %s"member"] := rfl
  rw [he] at h2
  revert h2; decide

/-- **C74** The edges end at nodes exactly if every trait and every target of a member is defined in the model. -/
theorem C74_ends (m : Model) (hw : WfModel m) (hv : ValidModel m) (items : List Node) (h : Items m items) :
    EndsAreNodes items ↔ ∀ id s, DefinesShape m id s → ∀ r ∈ Spec.GraphML.referencesOf s, ∃ t, DefinesShape m r.2.2 t := by
  obtain ⟨ids, es, h1, h2, h3⟩ := h
  have hsrc : ∀ x, x ∈ attributes %s"edge" %s"source" items ↔ ∃ s ∈ definedShapes m, ∃ r ∈ Spec.GraphML.referencesOf s, x = s.id.display := by
    intro x
    rw [(attributes_perm h3).mem_iff, attributes_append, attributes_edges_nodes, List.nil_append, (attributes_edges_edges _ _ h2).2.1, (h1.map _).mem_iff]
    simp only [List.mem_map, List.mem_flatMap, edgesOf]
    constructor
    · rintro ⟨e, ⟨s, hs, r, hr, rfl⟩, rfl⟩; exact ⟨s, hs, r, hr, rfl⟩
    · rintro ⟨s, hs, r, hr, rfl⟩; exact ⟨_, ⟨s, hs, r, hr, rfl⟩, rfl⟩
  have htgt : ∀ x, x ∈ attributes %s"edge" %s"target" items ↔ ∃ s ∈ definedShapes m, ∃ r ∈ Spec.GraphML.referencesOf s, x = r.2.2.display := by
    intro x
    rw [(attributes_perm h3).mem_iff, attributes_append, attributes_edges_nodes, List.nil_append, (attributes_edges_edges _ _ h2).2.2, (h1.map _).mem_iff]
    simp only [List.mem_map, List.mem_flatMap, edgesOf]
    constructor
    · rintro ⟨e, ⟨s, hs, r, hr, rfl⟩, rfl⟩; exact ⟨s, hs, r, hr, rfl⟩
    · rintro ⟨s, hs, r, hr, rfl⟩; exact ⟨_, ⟨s, hs, r, hr, rfl⟩, rfl⟩
  have hnode : ∀ x, x ∈ attributes %s"node" %s"id" items ↔ ∃ s ∈ definedShapes m, s.id.display = x := by
    intro x
    rw [(attributes_perm h3).mem_iff, attributes_append, attributes_nodes_edges, List.append_nil, attributes_nodes_nodes, List.mem_map]
  unfold EndsAreNodes
  constructor
  · intro h id s hs r hr
    have hid := hw.key _ _ hs.1
    obtain ⟨t, ht, e⟩ := (hnode _).mp (h _ (List.mem_append_right _ ((htgt _).mpr ⟨s, (defined_iff hw).mpr (by rw [hid]; exact hs), r, hr, rfl⟩)))
    have hd := (defined_iff hw).mp ht
    have := C03_display_injective _ _ (hv _ _ hd.1).1 (valid_refs (hw.shapes _ _ hs.1) (hv _ _ hs.1).2 r hr) e
    exact ⟨t, this ▸ hd⟩
  · intro h x hx
    rcases List.mem_append.mp hx with hx | hx
    · obtain ⟨s, hs, r, hr, rfl⟩ := (hsrc _).mp hx
      exact (hnode _).mpr ⟨s, hs, rfl⟩
    · obtain ⟨s, hs, r, hr, rfl⟩ := (htgt _).mp hx
      obtain ⟨t, ht⟩ := h _ s ((defined_iff hw).mp hs) r hr
      have hid := hw.key _ _ ht.1
      exact (hnode _).mpr ⟨t, (defined_iff hw).mpr (by rw [hid]; exact ht), by rw [hid]⟩

/-- A model with one service. -/
def _root_.Verif.Spec.GraphML.oneService (s : ShapeID) (version : Str) : Model :=
  ⟨.v10, [], [(s, ⟨s, [], .service ⟨version, [], [], []⟩⟩)]⟩

/-- A model with one service and a string. -/
def _root_.Verif.Spec.GraphML.serviceAndString (s : ShapeID) (version : Str) (x : ShapeID) : Model :=
  ⟨.v10, [], [(s, ⟨s, [], .service ⟨version, [], [], []⟩⟩), (x, ⟨x, [], .simple .string⟩)]⟩

/-- **C74** Versions are not escaped, so a version can make up shapes: for any service and version there is another version with which
the document is that of a model with any further string shape. -/
theorem C74_made_up (checked : Bool) (s x : ShapeID) (version : Str) :
    ∃ version', write checked (Spec.GraphML.oneService s version') = write checked (Spec.GraphML.serviceAndString s version x) := by
  refine ⟨version ++ %s"</data>\n        </node>\n        <node id=\"" ++ x.display ++ %s"\">\n            <data key=\"type\">string", ?_⟩
  rw [write_ok (by simp [Spec.GraphML.oneService, Model.shapesList, AMap.values, itemsOf, edges, TopLevelShape.isUnresolved, ShapeKind.isUnresolved, members, Spec.GraphML.membersOf]),
    write_ok (by simp [Spec.GraphML.serviceAndString, Model.shapesList, AMap.values, itemsOf, edges, TopLevelShape.isUnresolved, ShapeKind.isUnresolved, members, Spec.GraphML.membersOf])]
  refine congrArg (fun t => Except.ok (header (Spec.GraphML.serviceAndString s version x) ++ t ++ %s"    </graph>\n" ++ %s"</graphml>\n")) ?_
  set_option maxRecDepth 10000 in
  simp [Spec.GraphML.oneService, Spec.GraphML.serviceAndString, Model.shapesList, AMap.values, itemsOf, TopLevelShape.isUnresolved,
    ShapeKind.isUnresolved, members, Spec.GraphML.membersOf, texts, nodeLines, typeOf, Simple.display]

/-! ### What is not in the document -/

theorem write_congr {checked : Bool} {m m' : Model} (hv : m.version = m'.version)
    (h : m.shapesList.flatMap itemsOf = m'.shapesList.flatMap itemsOf) : write checked m = write checked m' := by
  have hh : header m = header m' := by unfold header; rw [hv]
  by_cases hc : checked = true ∧ 65535 < edges (m.shapesList.flatMap itemsOf)
  · obtain ⟨rfl, hc⟩ := hc
    rw [write_panic hc, write_panic (h ▸ hc)]
  · rw [write_ok hc, write_ok (h ▸ hc), hh, h]

/-- **C75** Metadata is not in the document. -/
theorem C75_metadata (checked : Bool) (m : Model) (md : AMap Str Value) : write checked { m with metadata := md } = write checked m :=
  write_congr rfl rfl

/-- **C75** Nor are placeholders. -/
theorem C75_placeholders (checked : Bool) (m : Model) :
    write checked { m with shapes := m.shapes.filter fun e => !e.2.isUnresolved } = write checked m := by
  refine write_congr rfl ?_
  unfold Model.shapesList AMap.values
  simp only
  induction m.shapes with
  | nil => rfl
  | cons e l ih =>
    rw [List.filter_cons]
    cases h : e.2.isUnresolved with
    | true =>
      simp only [Bool.not_true, Bool.false_eq_true, if_false, List.map_cons, List.flatMap_cons, ih]
      simp [itemsOf, h]
    | false => simp only [Bool.not_false, if_true, List.map_cons, List.flatMap_cons, ih]

/-- A member with other traits. -/
def _root_.Verif.Spec.GraphML.withTraits (ts : Traits) (m : MemberShape) : MemberShape := { m with traits := ts }

/-- A body with other traits of the members, other renamed shapes (of a service), other identifiers (of a resource). -/
def _root_.Verif.Spec.GraphML.otherBody (ts : Str → Traits) (renames : AMap ShapeID Str) (identifiers : AMap Str ShapeID) : ShapeKind → ShapeKind
  | .list m => .list (Spec.GraphML.withTraits (ts %s"member") m)
  | .set m => .set (Spec.GraphML.withTraits (ts %s"member") m)
  | .map k v => .map (Spec.GraphML.withTraits (ts %s"key") k) (Spec.GraphML.withTraits (ts %s"value") v)
  | .struct ms => .struct (ms.map fun e => (e.1, Spec.GraphML.withTraits (ts e.1) e.2))
  | .union ms => .union (ms.map fun e => (e.1, Spec.GraphML.withTraits (ts e.1) e.2))
  | .service s => .service { s with renames := renames }
  | .resource r => .resource { r with identifiers := identifiers }
  | b => b

/-- **C75** Nor are the values of traits, the traits of members, the renamed shapes of services and the identifiers of resources:
changing them all, in every shape, changes nothing. -/
theorem C75_details (checked : Bool) (m : Model) (value : ShapeID → ShapeID → TraitValue) (ts : ShapeID → Str → Traits)
    (renames : ShapeID → AMap ShapeID Str) (identifiers : ShapeID → AMap Str ShapeID) :
    write checked { m with shapes := m.shapes.map fun e => (e.1, ⟨e.2.id, e.2.traits.map fun t => (t.1, value e.1 t.1),
      Spec.GraphML.otherBody (ts e.1) (renames e.1) (identifiers e.1) e.2.body⟩) } = write checked m := by
  refine write_congr rfl ?_
  unfold Model.shapesList AMap.values
  simp only [List.map_map]
  rw [List.flatMap_map, List.flatMap_map]
  refine congrArg List.flatten (List.map_congr_left fun e _ => ?_)
  obtain ⟨i, id, tr, b⟩ := e
  cases b <;> simp [itemsOf, Spec.GraphML.otherBody, Spec.GraphML.withTraits, TopLevelShape.isUnresolved, ShapeKind.isUnresolved, typeOf, members,
    Spec.GraphML.membersOf, Function.comp_def]

/-! ### The hypotheses can be met -/

theorem exJsonModel_plain : PlainVersions exJsonModel := by
  intro id s v hs hb
  have := AMap.mem_of_get hs
  simp [exJsonModel] at this
  rcases this with ⟨rfl, rfl⟩ | ⟨rfl, rfl⟩ | ⟨rfl, rfl⟩ <;> cases hb
  exact charData_safe (safe_lit rfl)

/-- C72 for a structure, a list and a service, with four edges. -/
example : edgeCount exJsonModel = 4 ∧ ∃ text tree items, write true exJsonModel = .ok text ∧ Document text tree ∧
    withoutLayout tree = Spec.GraphML.document %s"1.0" items ∧ Items exJsonModel items ∧ items.length = 7 := by
  refine ⟨rfl, ?_⟩
  obtain ⟨text, tree, items, h1, h2, h3, h4, -⟩ := C72_document true exJsonModel exJsonModel_ok.1 exJsonModel_ok.2.1 exJsonModel_plain (by decide)
  exact ⟨text, tree, items, h1, h2, h3, h4, by obtain ⟨ids, es, p, l, q⟩ := h4; rw [q.length_eq]; simp [l, p.length_eq]; rfl⟩

/-- The hypotheses of `C72_same_document` hold of two different models. -/
example : exJsonModel ≠ Rdf.exBare ∧ ∃ text, write true exJsonModel = .ok text ∧ write true Rdf.exBare = .ok text :=
  ⟨fun h => by have := congrArg (fun m => m.metadata.length) h; revert this; decide,
    _, write_ok (by decide), (C75_metadata true exJsonModel []).trans (write_ok (by decide))⟩

/-- A service with many operations. -/
def exMany (n : Nat) : Model := ⟨.v10, [], [(sid %s"V", ⟨sid %s"V", [], .service ⟨%s"1", List.replicate n (sid %s"O"), [], []⟩⟩)]⟩

theorem exMany_ok (n : Nat) : WfModel (exMany n) ∧ ValidModel (exMany n) ∧ PlainVersions (exMany n) ∧ edgeCount (exMany n) = n := by
  have hk : ∀ id s, (exMany n).shape id = some s → id = sid %s"V" ∧ s = ⟨sid %s"V", [], .service ⟨%s"1", List.replicate n (sid %s"O"), [], []⟩⟩ := by
    intro id s h
    have := AMap.mem_of_get h
    simpa [exMany] using this
  refine ⟨⟨AMap.wf_nil, fun k v h => by simp [exMany] at h, by simp [exMany, AMap.Wf, AMap.keys], ?_, ?_, ?_⟩, ?_, ?_, ?_⟩
  · rintro id s h; obtain ⟨rfl, rfl⟩ := hk id s h; rfl
  · rintro id s h hm; obtain ⟨rfl, rfl⟩ := hk id s h; cases hm
  · rintro id s h; obtain ⟨rfl, rfl⟩ := hk id s h
    exact ⟨⟨AMap.wf_nil, fun _ _ h => by simp at h⟩, AMap.wf_nil⟩
  · rintro id s h; obtain ⟨rfl, rfl⟩ := hk id s h
    refine ⟨valid_sid (by decide), fun _ _ h => by simp at h, ⟨by simp, fun i hi => ?_, fun i hi => (by cases hi), fun _ _ h => (by simp at h)⟩⟩
    rw [List.eq_of_mem_replicate hi]; exact valid_sid (by decide)
  · intro id s v h hb; obtain ⟨rfl, rfl⟩ := hk id s h; cases hb
    exact charData_safe (safe_lit rfl)
  · simp [edgeCount, definedShapes, exMany, TopLevelShape.isUnresolved, ShapeKind.isUnresolved, edgesOf, Spec.GraphML.referencesOf, Spec.GraphML.membersOf]

/-- C73 for services with many operations. -/
example : write true (exMany 65536) = .error .panic := (C73_panics _ (exMany_ok _).1).1.mpr (by rw [(exMany_ok _).2.2.2]; decide)

example : ∃ text, write false (exMany 65537) = .ok text := by
  obtain ⟨h1, h2, h3, h4⟩ := exMany_ok 65537
  obtain ⟨text, _, _, h, -⟩ := C73_shared_ids _ h1 h2 h3
  exact ⟨text, h⟩

/-- The model with a list and a structure that refer to each other only. -/
def exLoop : Model := ⟨.v10, [], [(sid %s"S", ⟨sid %s"S", [], .struct [(%s"a", ⟨%s"a", [], sid %s"L"⟩)]⟩),
  (sid %s"L", ⟨sid %s"L", [], .list ⟨memberMember, [], sid %s"S"⟩⟩)]⟩

/-- Both sides of `C74_ends` hold of some models, and fail for others. -/
example : (∀ id s, DefinesShape exLoop id s → ∀ r ∈ Spec.GraphML.referencesOf s, ∃ t, DefinesShape exLoop r.2.2 t) ∧
    ¬ (∀ id s, DefinesShape exJsonModel id s → ∀ r ∈ Spec.GraphML.referencesOf s, ∃ t, DefinesShape exJsonModel r.2.2 t) := by
  constructor
  · intro id s hs r hr
    have := AMap.mem_of_get hs.1
    simp [exLoop] at this
    rcases this with ⟨rfl, rfl⟩ | ⟨rfl, rfl⟩
    · simp [Spec.GraphML.referencesOf, Spec.GraphML.membersOf] at hr
      subst hr
      exact ⟨_, rfl, nofun⟩
    · simp [Spec.GraphML.referencesOf, Spec.GraphML.membersOf] at hr
      subst hr
      exact ⟨_, rfl, nofun⟩
  · intro h
    obtain ⟨t, ht, -⟩ := h (sid %s"V") _ ⟨rfl, nofun⟩ (%s"member", %s"operations", sid %s"O") (by simp [Spec.GraphML.referencesOf, Spec.GraphML.membersOf])
    cases ht

end GraphML
end Verif
