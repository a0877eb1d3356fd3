/-
Property theorems C10-C14 (atelier-core/src/model/mod.rs, model/shapes/mod.rs).
-/
import Verif.MergeLemmas

namespace Verif
open Spec

/-! ### C10 Metadata conflict resolution -/

/-- C10: the four rules of `add_metadata`, and the frame: nothing else changes. -/
theorem C10_addMetadata (m : Model) (k : Str) (v : Value) (hm : WfModel m) (hv : v.Wf) :
    (m.metadataValue k = none →
      (m.addMetadata k v).2 = .ok none ∧ (m.addMetadata k v).1.metadataValue k = some v) ∧
    (∀ a b, m.metadataValue k = some (.array a) → v = .array b →
      (m.addMetadata k v).2 = .ok (some (.array a)) ∧ (m.addMetadata k v).1.metadataValue k = some (.array (a ++ b))) ∧
    (∀ o, m.metadataValue k = some o → ¬ (o.isArray ∧ v.isArray) → VEq o v → m.addMetadata k v = (m, .ok none)) ∧
    (∀ o, m.metadataValue k = some o → ¬ (o.isArray ∧ v.isArray) → ¬ VEq o v →
      m.addMetadata k v = (m, .error (.mergeMetadataConflict k))) ∧
    (∀ j, j ≠ k → (m.addMetadata k v).1.metadataValue j = m.metadataValue j) ∧
    (m.addMetadata k v).1.shapes = m.shapes ∧ (m.addMetadata k v).1.version = m.version := by
  have key : ∀ o, m.metadataValue k = some o → ¬ (o.isArray ∧ v.isArray) →
      m.addMetadata k v = if o.veq v then (m, .ok none) else (m, .error (.mergeMetadataConflict k)) := by
    intro o ho hna
    unfold Model.addMetadata
    rw [ho]
    cases o <;> cases v <;> simp_all [Value.isArray]
  have ho' : ∀ o, m.metadataValue k = some o → o.Wf := fun o ho => hm.metaValues k o ho
  refine ⟨?_, ?_, ?_, ?_, ?_, ?_, ?_⟩
  · intro h
    unfold Model.addMetadata
    rw [h]
    simp [Model.metadataValue]
  · rintro a b h rfl
    unfold Model.addMetadata
    rw [h]
    simp [Model.metadataValue]
  · intro o ho hna he
    rw [key o ho hna, if_pos ((Value.veq_iff o v (ho' o ho) hv).mpr he)]
  · intro o ho hna he
    rw [key o ho hna, if_neg fun h => he ((Value.veq_iff o v (ho' o ho) hv).mp h)]
  · intro j hj
    rw [(addMetadata_eq m k v).1]
    simp only [Model.metadataValue]
    exact AMap.get_insertOpt_ne _ _ hj.symm
  · rw [(addMetadata_eq m k v).1]
  · rw [(addMetadata_eq m k v).1]

/-- C10: `remove_metadata` removes exactly that key. -/
theorem C10_removeMetadata (m : Model) (k j : Str) :
    (m.removeMetadata k).metadataValue j = if j = k then none else m.metadataValue j := by
  simp only [Model.metadataValue, Model.removeMetadata, AMap.get_erase]
  by_cases h : j = k
  · simp [h]
  · have : ¬ k = j := fun e => h e.symm
    simp [h, this]

def exMeta : Model := ⟨.v10, [(%s"a", .array [.boolean true]), (%s"b", .string (%s"x"))], []⟩

example : (exMeta.addMetadata (%s"a") (.array [.none])).1.metadataValue (%s"a") = some (.array [.boolean true, .none]) ∧
    (exMeta.addMetadata (%s"b") (.string (%s"y"))).2 = .error (.mergeMetadataConflict (%s"b")) :=
  ⟨rfl, rfl⟩

/-! ### C11 Membership predicates -/

/-- C11: the four predicates are the negation of what they are documented to be. -/
theorem C11_predicates_negated (m : Model) (id : ShapeID) (k : Str) (ms : AMap Str MemberShape) (r : Resource) (n : Str) :
    (m.hasShape id = true ↔ m.shape id = none) ∧
    (m.hasMetadataValue k = true ↔ m.metadataValue k = none) ∧
    (structHasMember ms n = true ↔ structMember ms n = none) ∧
    (r.hasIdentifier n = true ↔ r.identifier n = none) := by
  simp [Model.hasShape, Model.shape, Model.hasMetadataValue, Model.metadataValue, structHasMember, structMember,
    Resource.hasIdentifier, Resource.identifier, AMap.contains]

/-- C11 is false for each of the four predicates, for every state of the model, not only for some: no query ever
answers correctly. -/
theorem C11_predicates_always_wrong (m : Model) (id : ShapeID) (k : Str) (ms : AMap Str MemberShape) (r : Resource)
    (n : Str) :
    ¬ (m.hasShape id = true ↔ (m.shape id).isSome = true) ∧
    ¬ (m.hasMetadataValue k = true ↔ (m.metadataValue k).isSome = true) ∧
    ¬ (structHasMember ms n = true ↔ (structMember ms n).isSome = true) ∧
    ¬ (r.hasIdentifier n = true ↔ (r.identifier n).isSome = true) := by
  obtain ⟨h1, h2, h3, h4⟩ := C11_predicates_negated m id k ms r n
  refine ⟨?_, ?_, ?_, ?_⟩
  · rw [h1]; cases m.shape id <;> simp
  · rw [h2]; cases m.metadataValue k <;> simp
  · rw [h3]; cases structMember ms n <;> simp
  · rw [h4]; cases r.identifier n <;> simp

/-- C11, the part that holds: the predicates that are not negated agree with lookup (`has_trait`, `TopLevelShape::has_member`,
`has_metadata`, `has_shapes`). -/
theorem C11_other_predicates (m : Model) (s : TopLevelShape) (ts : Traits) (id : ShapeID) (n : Str) :
    (hasTrait ts id = true ↔ (ts.get id).isSome = true) ∧
    (s.hasMember n = true ↔ (s.member n).isSome = true) ∧
    (m.hasMetadata = true ↔ ∃ k v, m.metadataValue k = some v) ∧
    (m.hasShapes = true ↔ ∃ id s, m.shape id = some s) := by
  refine ⟨Iff.rfl, Iff.rfl, ?_, ?_⟩
  · unfold Model.hasMetadata Model.metadataValue
    cases h : m.metadata with
    | nil => simp
    | cons e t =>
      simp only [List.isEmpty_cons, Bool.not_false, true_iff]
      exact ⟨e.1, e.2, by obtain ⟨a, b⟩ := e; simp [AMap.get]⟩
  · unfold Model.hasShapes Model.shape
    cases h : m.shapes with
    | nil => simp
    | cons e t =>
      simp only [List.isEmpty_cons, Bool.not_false, true_iff]
      exact ⟨e.1, e.2, by obtain ⟨a, b⟩ := e; simp [AMap.get]⟩

example : exMeta.hasMetadataValue (%s"a") = false ∧ (exMeta.metadataValue (%s"a")).isSome = true := by decide

/-! ### C12 Trait conflict resolution -/

/-- C12: the rules of `apply_with_value` on the trait map of an element, and the frame. -/
theorem C12_applyWithValue (ts : Traits) (id : ShapeID) (v : TraitValue) (hts : WfTraits ts)
    (hv : ∀ x, v = some x → x.Wf) :
    (id.isMember = true → applyWithValue ts id v = (ts, .error (.shapeIDExpected id))) ∧
    (id.isMember = false → ts.get id = none →
      (applyWithValue ts id v).2 = .ok () ∧ (applyWithValue ts id v).1.get id = some v) ∧
    (id.isMember = false → ∀ o n, ts.get id = some o → TraitMerge o v n →
      (applyWithValue ts id v).2 = .ok () ∧ (applyWithValue ts id v).1.get id = some n) ∧
    (id.isMember = false → ∀ o, ts.get id = some o → (¬ ∃ n, TraitMerge o v n) →
      applyWithValue ts id v = (ts, .error (.mergeTraitConflict id))) ∧
    (∀ j, j ≠ id → (applyWithValue ts id v).1.get j = ts.get j) := by
  refine ⟨?_, ?_, ?_, ?_, ?_⟩
  · intro h; simp [applyWithValue, h]
  · intro h h'; simp [applyWithValue, h, h']
  · intro h o n ho hn
    have ho' : ∀ x, o = some x → x.Wf := fun x hx => hts.values id x (by rw [ho, hx])
    have := (mergeTraits_ok_iff id ho' hv).mpr hn
    simp [applyWithValue, h, ho, this]
  · intro h o ho hn
    have ho' : ∀ x, o = some x → x.Wf := fun x hx => hts.values id x (by rw [ho, hx])
    cases hm : mergeTraits id o v with
    | ok n => exact absurd ⟨n, (mergeTraits_ok_iff id ho' hv).mp hm⟩ hn
    | error e =>
      have := mergeTraits_error id o v e hm
      subst this
      simp [applyWithValue, h, ho, hm]
  · intro j hj
    rw [applyWithValue_eq]
    exact AMap.get_insertOpt_ne _ _ hj.symm

/-- C12: the combination rule determines its result, and arrays are always combined by concatenation, also when one
of them is empty. -/
theorem C12_traitMerge_functional (a b c d : TraitValue) (h : TraitMerge a b c) (h' : TraitMerge a b d) : c = d := by
  cases h with
  | concat =>
    cases h' with
    | concat => rfl
    | equal h => exact absurd ⟨rfl, rfl⟩ h
  | valueless => cases h'; rfl
  | equal h =>
    cases h' with
    | concat => exact absurd ⟨rfl, rfl⟩ h
    | equal => rfl

/-- C12: appending a set of traits succeeds exactly when no id is a member id and each common trait can be
combined, and then the result is the key-wise combination: independent of the enumeration order. -/
theorem C12_appendTraits (ts l : Traits) (hts : WfTraits ts) (hl : WfTraits l) :
    ((appendTraits ts l).2 = .ok () ↔ (∀ id v, l.get id = some v → id.isMember = false) ∧
      ∀ id o v, ts.get id = some o → l.get id = some v → ∃ n, TraitMerge o v n) ∧
    ((appendTraits ts l).2 = .ok () → MapMerge TraitMerge ts l (appendTraits ts l).1) ∧
    (∀ id, l.get id = none → (appendTraits ts l).1.get id = ts.get id) ∧
    WfTraits (appendTraits ts l).1 :=
  ⟨appendTraits_ok_iff hts hl, appendTraits_merge hts hl,
    fun _ h => by rw [appendTraits_eq]; exact AMap.kfold_get_of_not_mem _ _ h, appendTraits_wf hts hl⟩

/-- C12: `remove_trait` removes exactly that trait. -/
theorem C12_removeTrait (ts : Traits) (id j : ShapeID) :
    (removeTrait ts id).get j = if j = id then none else ts.get j := by
  simp only [removeTrait, AMap.get_erase]
  by_cases h : j = id
  · simp [h]
  · have : ¬ id = j := fun e => h e.symm
    simp [h, this]

def tid (n : Str) : ShapeID := ⟨%s"smithy.api", n, none⟩

example : (applyWithValue [(tid (%s"tags"), some (.array [.none]))] (tid (%s"tags")) (some (.array [.boolean true]))).1.get
      (tid (%s"tags")) = some (some (.array [.none, .boolean true])) ∧
    (applyWithValue [(tid (%s"box"), none)] (tid (%s"box")) (some (.object []))).2 =
      .error (.mergeTraitConflict (tid (%s"box"))) := ⟨rfl, rfl⟩

example : WfTraits [(tid (%s"tags"), some (.array [.none]))] := by
  refine ⟨by unfold AMap.Wf; decide, ?_⟩
  intro id v h
  rw [AMap.get_cons] at h
  split at h
  · simp at h; subst h; exact .array (by simp; exact .none)
  · simp at h

/-! ### C13 Shape conflict resolution -/

/-- C13: a shape with a legal, new id is stored as is; a definition with a member id is rejected. -/
theorem C13_addShape_new (m : Model) (s : TopLevelShape) :
    (s.id.isMember = true → s.body ≠ .unresolved → m.addShape s = (m, .error (.shapeIDExpected s.id))) ∧
    ((s.id.isMember = true → s.body = .unresolved) → m.shape s.id = none →
      (m.addShape s).2 = .ok () ∧ (m.addShape s).1.shape s.id = some s) := by
  constructor
  · intro h1 h2
    have := isUnresolved_false_iff.mpr h2
    simp [Model.addShape, h1, this]
  · intro h1 h2
    have hc : (s.id.isMember && !s.body.isUnresolved) = false := by
      cases hm : s.id.isMember with
      | false => rfl
      | true => simp [isUnresolved_iff.mpr (h1 hm)]
    have h2' : AMap.get m.shapes s.id = none := h2
    simp [Model.addShape, Model.shape, hc, h2']

/-- C13: two definitions with the same id that do not agree are a conflict (or the panic of C14), and the model is
unchanged. -/
theorem C13_addShape_conflict (m : Model) (s e : TopLevelShape) (hm : WfModel m) (hs : WfShape s)
    (he : m.shape s.id = some e) (hed : e.body ≠ .unresolved) (hsd : s.body ≠ .unresolved)
    (hn : ¬ SameDef e.body s.body) (hid : s.id.isMember = false) :
    (m.addShape s).1 = m ∧
      ((m.addShape s).2 = .error (.mergeShapeConflict s.id) ∨ (m.addShape s).2 = .error .panic) := by
  have heid : e.id = s.id := hm.key s.id e he
  have h1 := isUnresolved_false_iff.mpr hed
  have h2 := isUnresolved_false_iff.mpr hsd
  have hiff := equalWithoutTraits_iff heid (hm.shapes _ _ he).body hs.body
  have hins : AMap.insert m.shapes s.id e = m.shapes := AMap.insert_same he
  cases hq : e.equalWithoutTraits s with
  | error er =>
    have : er = .panic := by
      unfold TopLevelShape.equalWithoutTraits at hq
      split at hq
      · generalize e.body = A at hq
        generalize s.body = B at hq
        have key : ∀ l r : AMap Str MemberShape, membersEqual l r = .error er → er = .panic := by
          intro l r h
          unfold membersEqual at h
          split at h
          · generalize hl' : (show List (Str × MemberShape) from l) = l' at h
            replace h : membersAllEqual l' r = .error er := h
            clear hl'
            induction l' with
            | nil => simp [membersAllEqual] at h
            | cons x t ih =>
              obtain ⟨k, mm⟩ := x
              unfold membersAllEqual at h
              split at h
              · injection h with h; exact h.symm
              · split at h
                · exact ih h
                · cases h
          · cases h
        cases A <;> cases B <;> simp only [ShapeKind.equalWithoutTraits] at hq <;>
          first | exact key _ _ hq | cases hq
      · cases hq
    subst this
    simp [Model.addShape, hid, he, Model.reconcile, h1, h2, hq, hins]
  | ok r =>
    cases r with
    | true => exact absurd (hiff.mp hq) hn
    | false => simp [Model.addShape, hid, he, Model.reconcile, h1, h2, hq, hins, heid]

/-- C13: when a shape with this id is stored, adding succeeds exactly when the bodies can be combined and every common
trait can be combined (and no added trait has a member id); the stored shape is then the combination. -/
theorem C13_addShape_existing (m : Model) (s e : TopLevelShape) (hm : WfModel m) (hs : WfShape s)
    (he : m.shape s.id = some e) :
    ((m.addShape s).2 = .ok () ↔ (s.id.isMember = true → s.body = .unresolved) ∧ (∃ k, BodyMerge e.body s.body k) ∧
      (∀ t v, s.traits.get t = some v → t.isMember = false) ∧
      (∀ t o v, e.traits.get t = some o → s.traits.get t = some v → ∃ n, TraitMerge o v n)) ∧
    ((m.addShape s).2 = .ok () → ∃ c, (m.addShape s).1.shape s.id = some c ∧ ShapeMerge e s c) := by
  have hspec := updShape_spec (id := s.id) (old := some e) (s := s) rfl
    (fun x hx => by injection hx with hx; subst hx; exact hm.key _ _ he)
    (fun x hx => by injection hx with hx; subst hx; exact hm.shapes _ _ he) hs
  have he' : AMap.get m.shapes s.id = some e := he
  rw [addShape_eq, he']
  constructor
  · rw [hspec.1]
    simp only [Option.some.injEq, forall_eq', appendTraits_ok_iff (hm.shapes _ _ he).traits hs.traits]
  · intro h
    have := hspec.2 h
    generalize hu : (updShape s.id (some e) s).1 = o at this
    simp only [hu]
    cases this with
    | both h' => exact ⟨_, by simp [Model.shape, AMap.insertOpt], h'⟩

/-- C13: whatever the result, a stored definition keeps its body (it is never replaced by another one), and a stored
placeholder becomes the added definition unless the shape was rejected for its id. -/
theorem C13_body_never_replaced (m : Model) (s e : TopLevelShape) (he : m.shape s.id = some e) :
    ∃ c, (m.addShape s).1.shape s.id = some c ∧ c.id = e.id ∧ (e.body ≠ .unresolved → c.body = e.body) ∧
      (e.body = .unresolved → s.id.isMember = false → c.body = s.body) := by
  unfold Model.addShape
  by_cases hc : (s.id.isMember && !s.body.isUnresolved) = true
  · simp only [hc, if_true]
    refine ⟨e, he, rfl, fun _ => rfl, fun _ hmem => ?_⟩
    simp [hmem] at hc
  · simp only [hc, if_false, he, Bool.false_eq_true]
    refine ⟨(Model.reconcile e s).1, by simp [Model.shape], (reconcile_frame e s).1, ?_, ?_⟩
    · intro hb
      rcases (reconcile_frame e s).2.1 with h | ⟨h, _⟩
      · exact h
      · exact absurd h hb
    · intro hb _
      unfold Model.reconcile
      rw [hb]
      cases hsb : s.body.isUnresolved with
      | false => simp [ShapeKind.isUnresolved, copyTraits_fst]
      | true => simp [ShapeKind.isUnresolved, copyTraits_fst, isUnresolved_iff.mp hsb, hb]

/-- C13: nothing but the shape with that id changes. -/
theorem C13_addShape_frame (m : Model) (s : TopLevelShape) :
    (m.addShape s).1.version = m.version ∧ (m.addShape s).1.metadata = m.metadata ∧
    ∀ id, id ≠ s.id → (m.addShape s).1.shape id = m.shape id := by
  rw [addShape_eq]
  exact ⟨rfl, rfl, fun id h => AMap.get_insertOpt_ne _ _ (Ne.symm h)⟩

/-- C13: `remove_shape` removes exactly that shape. -/
theorem C13_removeShape (m : Model) (id j : ShapeID) :
    (m.removeShape id).shape j = if j = id then none else m.shape j := by
  simp only [Model.shape, Model.removeShape, AMap.get_erase]
  by_cases h : j = id
  · simp [h]
  · have : ¬ id = j := fun e => h e.symm
    simp [h, this]

def sid (n : Str) : ShapeID := ⟨%s"ex", n, none⟩
def exStruct (n : Str) (ms : List (Str × ShapeID)) : TopLevelShape :=
  ⟨sid n, [], .struct (withMembers (ms.map fun e => MemberShape.new e.1 e.2))⟩
def exModel : Model := ⟨.v10, [], [(sid (%s"S"), exStruct (%s"S") [(%s"a", sid (%s"T"))]), (sid (%s"T"), ⟨sid (%s"T"), [], .unresolved⟩)]⟩

theorem exModel_wf : WfModel exModel := by
  have hS : ∀ id s, exModel.shape id = some s →
      (id = sid (%s"S") ∧ s = exStruct (%s"S") [(%s"a", sid (%s"T"))]) ∨
      (id = sid (%s"T") ∧ s = ⟨sid (%s"T"), [], .unresolved⟩) := by
    intro id s h
    simp only [exModel, Model.shape, AMap.get_cons, AMap.get_nil] at h
    split at h
    · next e => injection h with h; exact .inl ⟨e.symm, h.symm⟩
    · split at h
      · next e => injection h with h; exact .inr ⟨e.symm, h.symm⟩
      · cases h
  refine ⟨AMap.wf_nil, by simp [exModel], by unfold AMap.Wf; decide, ?_, ?_, ?_⟩
  · intro id s h
    rcases hS id s h with ⟨rfl, rfl⟩ | ⟨rfl, rfl⟩ <;> rfl
  · intro id s h hm
    rcases hS id s h with ⟨rfl, rfl⟩ | ⟨rfl, rfl⟩
    · cases hm
    · rfl
  · intro id s h
    rcases hS id s h with ⟨rfl, rfl⟩ | ⟨rfl, rfl⟩
    · refine ⟨⟨AMap.wf_nil, by simp [exStruct]⟩, ⟨?_, ?_, ?_⟩⟩
      · show AMap.Wf _; unfold AMap.Wf; decide
      · intro k m hk
        simp [withMembers, addAMember, AMap.insert, AMap.get_cons, MemberShape.new] at hk
        obtain ⟨rfl, rfl⟩ := hk; rfl
      · intro k m hk
        simp [withMembers, addAMember, AMap.insert, AMap.get_cons, MemberShape.new] at hk
        obtain ⟨rfl, rfl⟩ := hk
        exact ⟨AMap.wf_nil, by simp⟩
    · exact ⟨⟨AMap.wf_nil, by simp⟩, trivial⟩

example : (exModel.addShape (exStruct (%s"S") [(%s"a", sid (%s"U"))])).2 = .error (.mergeShapeConflict (sid (%s"S"))) ∧
    (exModel.addShape (exStruct (%s"S") [(%s"a", sid (%s"T"))])).2 = .ok () ∧
    (exModel.addShape (exStruct (%s"T") [(%s"a", sid (%s"T"))])).2 = .ok () := ⟨rfl, rfl, rfl⟩

/-! ### C14 Panics of add_shape -/

/-- C14 is violated: two structures with the same number of differently named members make `add_shape` panic, where a
`MergeShapeConflict` is due. -/
theorem C14_addShape_panics : ∃ (m : Model) (s : TopLevelShape), WfModel m ∧ (m.addShape s).2 = .error .panic :=
  ⟨exModel, exStruct (%s"S") [(%s"b", sid (%s"T"))], exModel_wf, rfl⟩

/-- Two member maps of the same size with different names. -/
def MissingMember (a b : AMap Str MemberShape) : Prop :=
  a.length = b.length ∧ ∃ k, (a.get k).isSome = true ∧ b.get k = none

theorem membersAllEqual_panic {l : List (Str × MemberShape)} {r : AMap Str MemberShape} {e : Err}
    (h : membersAllEqual l r = .error e) : e = .panic ∧ ∃ x ∈ l, AMap.get r x.1 = none := by
  induction l with
  | nil => simp [membersAllEqual] at h
  | cons x t ih =>
    obtain ⟨k, m⟩ := x
    unfold membersAllEqual at h
    split at h
    · next hk => injection h with h; exact ⟨h.symm, (k, m), by simp, hk⟩
    · split at h
      · obtain ⟨h1, x, hx, hg⟩ := ih h
        exact ⟨h1, x, by simp [hx], hg⟩
      · cases h

theorem membersEqual_panic {l r : AMap Str MemberShape} {e : Err} (hl : AMap.Wf l)
    (h : membersEqual l r = .error e) : e = .panic ∧ MissingMember l r := by
  unfold membersEqual at h
  split at h
  · next hlen =>
    obtain ⟨h1, x, hx, hg⟩ := membersAllEqual_panic h
    obtain ⟨k, v⟩ := x
    exact ⟨h1, by simpa using hlen, k, by rw [AMap.get_of_mem hl hx]; rfl, hg⟩
  · cases h

theorem appendTraits_not_panic (ts : Traits) (l : List (ShapeID × TraitValue)) : (appendTraits ts l).2 ≠ .error .panic := by
  induction l generalizing ts with
  | nil => simp [appendTraits]
  | cons x t ih =>
    obtain ⟨id, v⟩ := x
    unfold appendTraits
    cases h : applyWithValue ts id v with
    | mk ts' r =>
      cases r with
      | ok u => exact ih _
      | error e =>
        simp only
        intro hp
        injection hp with hp; subst hp
        unfold applyWithValue at h
        split at h
        · simp at h
        · split at h
          · split at h
            · simp at h
            · next e' he' =>
              have := mergeTraits_error _ _ _ _ he'
              subst this
              simp at h
          · simp at h

/-- C14, the part that holds: `add_shape` panics only for two structures, or two unions, with equally many members
such that a stored member's name is missing in the added shape. For all other shapes no panic is reachable. -/
theorem C14_panic_only_missing_member (m : Model) (s : TopLevelShape) (hm : WfModel m) (hs : WfShape s)
    (hp : (m.addShape s).2 = .error .panic) :
    ∃ e a b, m.shape s.id = some e ∧ MissingMember a b ∧
      ((e.body = .struct a ∧ s.body = .struct b) ∨ (e.body = .union a ∧ s.body = .union b)) := by
  unfold Model.addShape at hp
  split at hp
  · simp at hp
  · split at hp
    · next e he =>
      simp only at hp
      unfold Model.reconcile at hp
      have hwf := hm.shapes _ _ he
      split at hp
      · split at hp
        · next er heq =>
          simp only [Except.error.injEq] at hp
          subst hp
          unfold TopLevelShape.equalWithoutTraits at heq
          split at heq
          · have hA : WfKind e.body := hwf.body
            have hB : WfKind s.body := hs.body
            refine ⟨e, ?_⟩
            generalize e.body = A at heq hA
            generalize s.body = B at heq hB
            cases A <;> cases B <;> simp only [ShapeKind.equalWithoutTraits] at heq <;> try cases heq
            · exact ⟨_, _, he, (membersEqual_panic hA.nodup heq).2, .inl ⟨rfl, rfl⟩⟩
            · exact ⟨_, _, he, (membersEqual_panic hA.nodup heq).2, .inr ⟨rfl, rfl⟩⟩
          · cases heq
        · exact absurd hp (appendTraits_not_panic _ _)
        · simp at hp
      · exact absurd hp (appendTraits_not_panic _ _)
      · exact absurd hp (appendTraits_not_panic _ _)
    · simp at hp

theorem membersAllEqual_of_common {l : List (Str × MemberShape)} {r : AMap Str MemberShape}
    (hc : ∀ x ∈ l, ∀ m', AMap.get r x.1 = some m' → SameMember x.2 m') (hm : ∃ x ∈ l, AMap.get r x.1 = none) :
    membersAllEqual l r = .error .panic := by
  induction l with
  | nil => simp at hm
  | cons x t ih =>
    obtain ⟨k, m⟩ := x
    unfold membersAllEqual
    cases hg : AMap.get r k with
    | none => rfl
    | some m' =>
      have hs := hc (k, m) (by simp) m' hg
      simp only [(member_equalWithoutTraits_iff m m').mpr hs, if_true]
      apply ih (fun x hx => hc x (by simp [hx]))
      obtain ⟨x, hx, hn⟩ := hm
      rcases List.mem_cons.mp hx with rfl | hx
      · rw [hg] at hn; cases hn
      · exact ⟨x, hx, hn⟩

/-- C14: exactly when the panic is certain: whatever the enumeration order of the stored members, the panic occurs if
the two structures have equally many members, a stored name is missing and the members present on both sides agree. -/
theorem C14_panic_certain (m : Model) (s e : TopLevelShape) (a b : AMap Str MemberShape) (ha : AMap.Wf a)
    (he : m.shape s.id = some e) (heid : e.id = s.id) (hid : s.id.isMember = false)
    (hea : e.body = .struct a) (hsb : s.body = .struct b) (hmiss : MissingMember a b)
    (hc : ∀ k x y, a.get k = some x → b.get k = some y → SameMember x y) :
    (m.addShape s).2 = .error .panic := by
  obtain ⟨hlen, k, hk, hn⟩ := hmiss
  obtain ⟨x, hx⟩ := Option.isSome_iff_exists.mp hk
  have : membersEqual a b = .error .panic := by
    unfold membersEqual
    simp only [hlen, beq_self_eq_true, if_true]
    refine membersAllEqual_of_common ?_ ⟨(k, x), AMap.mem_of_get hx, hn⟩
    rintro ⟨j, y⟩ hy m' hm'
    exact hc j y m' (AMap.get_of_mem ha hy) hm'
  simp [Model.addShape, hid, he, Model.reconcile, hea, hsb, ShapeKind.isUnresolved, TopLevelShape.equalWithoutTraits, heid,
    ceq_refl, ShapeKind.equalWithoutTraits, this]

/-- C14: whether the same call panics or reports the conflict can depend on the enumeration order of the stored
structure's members (a randomly seeded `HashMap`). -/
theorem C14_panic_depends_on_order : ∃ (m m' : Model) (s : TopLevelShape), SameModel m m' ∧
    (m.addShape s).2 = .error .panic ∧ (m'.addShape s).2 = .error (.mergeShapeConflict s.id) := by
  refine ⟨⟨.v10, [], [(sid (%s"S"), exStruct (%s"S") [(%s"a", sid (%s"T")), (%s"b", sid (%s"T"))])]⟩,
    ⟨.v10, [], [(sid (%s"S"), exStruct (%s"S") [(%s"b", sid (%s"T")), (%s"a", sid (%s"T"))])]⟩,
    exStruct (%s"S") [(%s"c", sid (%s"T")), (%s"b", sid (%s"U"))], ⟨rfl, MapRel.nil, ?_⟩, rfl, rfl⟩
  intro k
  simp only [AMap.get_cons, AMap.get_nil]
  split
  · refine .some ⟨rfl, MapRel.nil, .struct ?_⟩
    refine MapRel.mono (R := Eq) ?_ (MapRel.of_perm ?_ ?_)
    · rintro a _ rfl
      exact ⟨rfl, rfl, MapRel.refl (fun o => OptRel.refl Same.refl o) _⟩
    · unfold AMap.Wf; decide
    · simp [withMembers, addAMember, AMap.insert, MemberShape.new]
      exact List.Perm.swap _ _ _
  · exact .none

end Verif
