/-
C106: what is found in a model depends only on its outline; so it survives JSON.
-/
import Verif.LintMore
import Verif.QueryProps
import Verif.SettleJson
import Verif.SettleCross
import Verif.IdlExamples

namespace Verif
open Query

namespace Spec

/-- The same traits are applied, with whatever values. -/
def SameNamed (a b : Traits) : Prop := MapRel (fun _ _ => True) a b

def OutlineMember (a b : MemberShape) : Prop := a.id = b.id ∧ a.target = b.target ∧ SameNamed a.traits b.traits

/-- The same kind of shape with the same references; the members of structures and unions have the same names and the same traits
(with whatever values). -/
inductive OutlineKind : ShapeKind → ShapeKind → Prop
  | simple {s} : OutlineKind (.simple s) (.simple s)
  | list {a b} : a.target = b.target → OutlineKind (.list a) (.list b)
  | set {a b} : a.target = b.target → OutlineKind (.set a) (.set b)
  | map {k v k' v'} : k.target = k'.target → v.target = v'.target → OutlineKind (.map k v) (.map k' v')
  | struct {a b} : MapRel OutlineMember a b → OutlineKind (.struct a) (.struct b)
  | union {a b} : MapRel OutlineMember a b → OutlineKind (.union a) (.union b)
  | service {a b} : a.operations = b.operations → a.resources = b.resources → OutlineKind (.service a) (.service b)
  | operation {o} : OutlineKind (.operation o) (.operation o)
  | resource {m m' : AMap Str ShapeID} {c p r u d l o co rs} : MapRel Eq m m' →
      OutlineKind (.resource ⟨m, c, p, r, u, d, l, o, co, rs⟩) (.resource ⟨m', c, p, r, u, d, l, o, co, rs⟩)
  | unresolved : OutlineKind .unresolved .unresolved

structure OutlineShape (a b : TopLevelShape) : Prop where
  id : a.id = b.id
  traits : SameNamed a.traits b.traits
  body : OutlineKind a.body b.body

/-- The models have the same shapes, up to the values of traits, metadata, versions and renames of services, the names of the members of
lists, sets and maps and their traits, and the order of every map. -/
def Outline (a b : Model) : Prop := MapRel OutlineShape a.shapes b.shapes

/-- The same is found in both models, in whatever order: by the validators (the wording may name members that are named otherwise), by
the linters (the terms linter attaches a term that occurs in several places to any of them), by the questions about completeness, and by
every query of shape types. -/
structure SameFindings (h : Heck) (a b : Model) : Prop where
  unresolved : (unresolvedValidate a).Perm (unresolvedValidate b)
  references : ((TypeRefs.validate a).map fun i => (i.reporter, i.level, i.locus)).Perm
    ((TypeRefs.validate b).map fun i => (i.reporter, i.level, i.locus))
  naming : (Naming.check h a).Perm (Naming.check h b)
  terms : ((Terms.check h a ⟨[], []⟩).issues.map (·.message)).Perm ((Terms.check h b ⟨[], []⟩).issues.map (·.message))
  complete : a.isComplete = b.isComplete
  queries : ∀ s : Selector, (∀ e ∈ s, Evaluable e) → ∃ ids ids', query s a = .ok (.shapes ids) ∧ query s b = .ok (.shapes ids') ∧ ids.Perm ids'

end Spec
open Spec

theorem outline_get {a b : Model} (h : Outline a b) {id : ShapeID} {x : TopLevelShape} (hx : a.shape id = some x) :
    ∃ y, b.shape id = some y ∧ OutlineShape x y := by
  have := h id
  unfold Model.shape at hx ⊢
  rw [hx] at this
  generalize hy : AMap.get b.shapes id = o at this
  cases this with
  | some h => exact ⟨_, rfl, h⟩

theorem Spec.SameNamed.symm {a b : Traits} (h : SameNamed a b) : SameNamed b a := by
  intro k
  have := h k
  generalize AMap.get a k = x at this
  generalize AMap.get b k = y at this
  cases this
  · exact .none
  · exact .some trivial

theorem mapRel_symm {K V : Type} [DecidableEq K] {R : V → V → Prop} (hR : ∀ x y, R x y → R y x) {a b : AMap K V} (h : MapRel R a b) : MapRel R b a := by
  intro k
  have := h k
  generalize AMap.get a k = x at this
  generalize AMap.get b k = y at this
  cases this with
  | none => exact .none
  | some h => exact .some (hR _ _ h)

theorem Spec.OutlineMember.symm {a b : MemberShape} (h : OutlineMember a b) : OutlineMember b a := ⟨h.1.symm, h.2.1.symm, SameNamed.symm h.2.2⟩

theorem Spec.OutlineKind.symm {a b : ShapeKind} (h : OutlineKind a b) : OutlineKind b a := by
  cases h with
  | simple => exact .simple
  | list h => exact .list h.symm
  | set h => exact .set h.symm
  | map h h' => exact .map h.symm h'.symm
  | struct h => exact .struct (mapRel_symm (fun _ _ => OutlineMember.symm) h)
  | union h => exact .union (mapRel_symm (fun _ _ => OutlineMember.symm) h)
  | service h h' => exact .service h.symm h'.symm
  | operation => exact .operation
  | resource h => exact .resource (mapRel_symm (fun _ _ => Eq.symm) h)
  | unresolved => exact .unresolved

theorem Spec.OutlineShape.symm {a b : TopLevelShape} (h : OutlineShape a b) : OutlineShape b a := ⟨h.id.symm, SameNamed.symm h.traits, OutlineKind.symm h.body⟩

theorem Spec.Outline.symm {a b : Model} (h : Outline a b) : Outline b a := mapRel_symm (fun _ _ => OutlineShape.symm) h

theorem sameNamed_get {a b : Traits} (h : SameNamed a b) {t : ShapeID} {v : TraitValue} (hv : a.get t = some v) : ∃ w, b.get t = some w := by
  have := h t
  rw [hv] at this
  generalize AMap.get b t = o at this
  cases this
  exact ⟨_, rfl⟩

theorem outline_members {a b : ShapeKind} (h : OutlineKind a b) {ms : AMap Str MemberShape} (hm : a = .struct ms ∨ a = .union ms) {n : Str}
    {x : MemberShape} (hx : ms.get n = some x) :
    ∃ (ms' : AMap Str MemberShape) (y : MemberShape), (b = .struct ms' ∨ b = .union ms') ∧ ms'.get n = some y ∧ OutlineMember x y := by
  have key : ∀ {ms' : AMap Str MemberShape}, MapRel OutlineMember ms ms' → ∃ y, ms'.get n = some y ∧ OutlineMember x y := by
    intro ms' h
    have := h n
    rw [hx] at this
    generalize AMap.get ms' n = o at this
    cases this with
    | some h => exact ⟨_, rfl, h⟩
  rcases hm with rfl | rfl
  · cases h with
    | struct h => obtain ⟨y, h1, h2⟩ := key h; exact ⟨_, y, .inl rfl, h1, h2⟩
  · cases h with
    | union h => obtain ⟨y, h1, h2⟩ := key h; exact ⟨_, y, .inr rfl, h1, h2⟩

/-! ### The validators -/

theorem outline_unresolved {a b : ShapeKind} (h : OutlineKind a b) : a.isUnresolved = b.isUnresolved := by cases h <;> rfl

theorem outline_allowed {a b : ShapeKind} (h : OutlineKind a b) (r : Role) : allowedB r a = allowedB r b := by
  cases h <;> cases r <;> rfl

theorem filter_map_flatMap {α β : Type} (p : α → Bool) (g : α → β) (l : List α) :
    (l.filter p).map g = l.flatMap fun x => if p x then [g x] else [] := by
  induction l with
  | nil => rfl
  | cons x l ih => by_cases h : p x = true <;> simp [h, ih]

theorem unresolved_outline {a b : Model} (ha : WfModel a) (hb : WfModel b) (h : Outline a b) :
    (unresolvedValidate a).Perm (unresolvedValidate b) := by
  unfold unresolvedValidate
  rw [filter_map_flatMap, filter_map_flatMap]
  simp only [Model.shapesList, AMap.values, List.flatMap_map]
  refine flatMap_perm_of_mapRel ha.nodup hb.nodup h _ _ fun k x y hx hy hxy => ?_
  simp only [outline_unresolved hxy.body, hxy.id]
  exact List.Perm.refl _

/-- The verdict on a reference, without its wording. -/
def verdictOf (m : Model) (shape : ShapeID) (e : Role × ShapeID) : List (Str × IssueLevel × Option ShapeID) :=
  match m.shape e.2 with
  | some t => if allowedB e.1 t.body then [] else [(TypeRefs.label, .error, some shape)]
  | none => if e.2.ns = %s"smithy.api" then [] else [(TypeRefs.label, .warning, some shape)]

theorem verdict_of (m : Model) (shape : ShapeID) (e : Str × Role × ShapeID) :
    (verdict m shape e).map (fun i => (i.reporter, i.level, i.locus)) = verdictOf m shape e.2 := by
  unfold verdict verdictOf
  cases m.shape e.2.2 with
  | some t => by_cases h : allowedB e.2.1 t.body = true <;> simp [h, TypeRefs.err]
  | none => by_cases h : e.2.2.ns = %s"smithy.api" <;> simp [h, TypeRefs.warn]

theorem verdictOf_outline {a b : Model} (h : Outline a b) (id : ShapeID) (e : Role × ShapeID) : verdictOf a id e = verdictOf b id e := by
  unfold verdictOf
  have := h e.2
  unfold Model.shape
  generalize AMap.get a.shapes e.2 = x at this
  generalize AMap.get b.shapes e.2 = y at this
  cases this with
  | none => rfl
  | some h => simp only [outline_allowed h.body]

theorem references_outline {a b : ShapeKind} (ha : WfKind a) (hb : WfKind b) (h : OutlineKind a b) : (references a).Perm (references b) := by
  have hmap : ∀ {K V : Type} [DecidableEq K] {R : V → V → Prop} {a b : AMap K V}, AMap.Wf a → AMap.Wf b → MapRel R a b →
      ∀ g : V → Role × ShapeID, (∀ x y, R x y → g x = g y) → (a.map fun e => g e.2).Perm (b.map fun e => g e.2) := by
    intro K V _ R a b ha hb h g hg
    have := flatMap_perm_of_mapRel ha hb h (fun e => [g e.2]) (fun e => [g e.2]) (fun k x y _ _ hxy => by rw [hg x y hxy])
    rwa [flatMap_one (fun e : K × V => g e.2) a, flatMap_one (fun e : K × V => g e.2) b] at this
  cases h with
  | list h => simp [references, h]
  | set h => simp [references, h]
  | map h h' => simp [references, h, h']
  | struct h => exact hmap ha.nodup hb.nodup h (fun m => (Role.data, m.target)) fun x y hxy => by rw [hxy.2.1]
  | union h => exact hmap ha.nodup hb.nodup h (fun m => (Role.data, m.target)) fun x y hxy => by rw [hxy.2.1]
  | service h h' => simp only [references, h, h']; exact List.Perm.refl _
  | resource h =>
    simp only [references]
    exact ((hmap ha hb h (fun t => (Role.data, t)) fun x y hxy => by rw [hxy]).append_right _).append_right _
  | _ => exact List.Perm.refl _

theorem sameNamed_empty {a b : Traits} (h : SameNamed a b) : a.isEmpty = b.isEmpty := by
  cases a with
  | nil =>
    cases b with
    | nil => rfl
    | cons e es => have := h e.1; rw [AMap.get_cons, if_pos rfl] at this; cases this
  | cons e es =>
    cases b with
    | nil => have := h e.1; rw [AMap.get_cons, if_pos rfl] at this; cases this
    | cons => rfl

theorem synonym_outline {a b : TopLevelShape} (h : OutlineShape a b) : synonym a = synonym b := by
  obtain ⟨id, ts, ka⟩ := a
  obtain ⟨id', ts', kb⟩ := b
  obtain rfl : id = id' := h.id
  have ht := sameNamed_empty h.traits
  have hk := h.body
  simp only at hk ht
  cases hk <;> simp [synonym, ht]

theorem typeRefs_outline {a b : Model} (ha : WfModel a) (hb : WfModel b) (h : Outline a b) :
    ((TypeRefs.validate a).map fun i => (i.reporter, i.level, i.locus)).Perm ((TypeRefs.validate b).map fun i => (i.reporter, i.level, i.locus)) := by
  have key : ∀ (m : Model) (s : TopLevelShape), (TypeRefs.checkShape m s).map (fun i => (i.reporter, i.level, i.locus)) =
      (synonym s).map (fun i => (i.reporter, i.level, i.locus)) ++ (references s.body).flatMap (verdictOf m s.id) := by
    intro m s
    rw [checkShape_eq, List.map_append, List.map_flatMap, ← refsOf_references, List.flatMap_map]
    simp only [verdict_of]
  simp only [TypeRefs.validate, List.map_flatMap, key, Model.shapesList, AMap.values, List.flatMap_map]
  refine flatMap_perm_of_mapRel ha.nodup hb.nodup h _ _ fun k x y hx hy hxy => ?_
  simp only [synonym_outline hxy, hxy.id]
  refine List.Perm.append_left _ ?_
  rw [funext (verdictOf_outline h y.id)]
  exact (references_outline (ha.shapes _ _ hx).2 (hb.shapes _ _ hy).2 hxy.body).flatMap_right _

/-! ### The linters -/

theorem applied_outline (h : Heck) {a b : Traits} (ha : AMap.Wf a) (hb : AMap.Wf b) (hs : SameNamed a b) :
    (Naming.checkApplied h a).Perm (Naming.checkApplied h b) := by
  simp only [Naming.checkApplied, AMap.keys, List.flatMap_map]
  exact flatMap_perm_of_mapRel ha hb hs _ _ fun k x y _ _ _ => List.Perm.refl _

theorem naming_members (h : Heck) (id : ShapeID) {a b : AMap Str MemberShape} (ha : WfMembers a) (hb : WfMembers b) (hs : MapRel OutlineMember a b) :
    ((AMap.values a).flatMap (Naming.checkMember h id)).Perm ((AMap.values b).flatMap (Naming.checkMember h id)) := by
  simp only [AMap.values, List.flatMap_map]
  refine flatMap_perm_of_mapRel ha.nodup hb.nodup hs _ _ fun k x y hx hy hxy => ?_
  simp only [Naming.checkMember, hxy.1, hxy.2.1]
  exact (applied_outline h (ha.traits _ _ hx).nodup (hb.traits _ _ hy).nodup hxy.2.2).append_left _

theorem naming_outline (h : Heck) {a b : Model} (ha : WfModel a) (hb : WfModel b) (ho : Outline a b) :
    (Naming.check h a).Perm (Naming.check h b) := by
  simp only [Naming.check, Model.shapesList, AMap.values, List.flatMap_map]
  refine flatMap_perm_of_mapRel ha.nodup hb.nodup ho _ _ fun k x y hx hy hxy => ?_
  have hx' := ha.shapes _ _ hx
  have hy' := hb.shapes _ _ hy
  obtain ⟨id, ts, ka⟩ := x
  obtain ⟨id', ts', kb⟩ := y
  obtain rfl : id = id' := hxy.id
  have hs : SameNamed ts ts' := hxy.traits
  have ht : hasTrait ts ⟨%s"smithy.api", %s"trait", none⟩ = hasTrait ts' ⟨%s"smithy.api", %s"trait", none⟩ := by
    have := hs ⟨%s"smithy.api", %s"trait", none⟩
    unfold hasTrait AMap.contains
    generalize AMap.get ts _ = u at this
    generalize AMap.get ts' _ = w at this
    cases this <;> rfl
  have hk := hxy.body
  simp only [Naming.checkShape, ht]
  refine List.Perm.append ((applied_outline h hx'.traits.nodup hy'.traits.nodup hs).append_left _) ?_
  have h1 := hx'.2
  have h2 := hy'.2
  simp only at hk h1 h2
  cases hk with
  | struct hm => exact naming_members h id h1 h2 hm
  | union hm => exact naming_members h id h1 h2 hm
  | _ => exact List.Perm.refl _

theorem mentions_outline {a b : Model} (ho : Outline a b) {p : Str} (hp : MentionsWord a p) : MentionsWord b p := by
  cases hp with
  | shape hs hp => obtain ⟨y, hy, _⟩ := outline_get ho hs; exact .shape hy hp
  | applied hs ht hp =>
    obtain ⟨y, hy, hxy⟩ := outline_get ho hs
    obtain ⟨w, hw⟩ := sameNamed_get hxy.traits ht
    exact .applied hy hw hp
  | member hs hb hn =>
    obtain ⟨y, hy, hxy⟩ := outline_get ho hs
    obtain ⟨ms', z, h1, h2, h3⟩ := outline_members hxy.body hb hn
    rw [h3.1]
    exact .member hy h1 h2
  | target hs hb hn hp =>
    obtain ⟨y, hy, hxy⟩ := outline_get ho hs
    obtain ⟨ms', z, h1, h2, h3⟩ := outline_members hxy.body hb hn
    exact .target hy h1 h2 (h3.2.1 ▸ hp)
  | memberTrait hs hb hn ht hp =>
    obtain ⟨y, hy, hxy⟩ := outline_get ho hs
    obtain ⟨ms', z, h1, h2, h3⟩ := outline_members hxy.body hb hn
    obtain ⟨w, hw⟩ := sameNamed_get h3.2.2 ht
    exact .memberTrait hy h1 h2 hw hp

theorem terms_outline (h : Heck) {a b : Model} (ha : WfModel a) (hb : WfModel b) (ho : Outline a b) :
    ((Terms.check h a ⟨[], []⟩).issues.map (·.message)).Perm ((Terms.check h b ⟨[], []⟩).issues.map (·.message)) := by
  obtain ⟨new, ids, h1, h2, h3, h4⟩ := C48_each_once h a ha ⟨[], []⟩
  obtain ⟨new', ids', h1', h2', h3', h4'⟩ := C48_each_once h b hb ⟨[], []⟩
  rw [h1, h1', List.nil_append, List.nil_append, h4, h4']
  refine List.Perm.flatMap_right _ ((List.perm_ext_iff_of_nodup h2 h2').mpr fun p => ?_)
  rw [h3, h3']
  simp only [List.not_mem_nil, not_false_eq_true, and_true]
  exact ⟨mentions_outline ho, mentions_outline ho.symm⟩

/-! ### Queries -/

theorem actual_outline {a b : ShapeKind} (h : OutlineKind a b) (t : ShapeType) : Actual t a ↔ Actual t b := by
  have : ∀ id ts, matchByShapeType t ⟨id, ts, a⟩ = matchByShapeType t ⟨id, ts, b⟩ := by
    intro id ts
    cases h <;> cases t <;> rfl
  have h1 := matchByShapeType_iff t ⟨⟨[], [], none⟩, [], a⟩
  have h2 := matchByShapeType_iff t ⟨⟨[], [], none⟩, [], b⟩
  rw [← h1, ← h2, this]

theorem queries_outline {a b : Model} (ha : WfModel a) (hb : WfModel b) (ho : Outline a b) (s : Selector) (hs : ∀ e ∈ s, Evaluable e) :
    ∃ ids ids', query s a = .ok (.shapes ids) ∧ query s b = .ok (.shapes ids') ∧ ids.Perm ids' := by
  obtain ⟨ids, h1, h2, -, h3⟩ := C40_query_iff a ha s hs
  obtain ⟨ids', h1', h2', -, h3'⟩ := C40_query_iff b hb s hs
  refine ⟨ids, ids', h1, h1', (List.perm_ext_iff_of_nodup h2 h2').mpr fun id => ?_⟩
  have key : ∀ {a b : Model}, Outline a b → (∃ x, a.shape id = some x ∧ x.body ≠ .unresolved ∧ ∀ t, askedTypes s t → Actual t x.body) →
      ∃ x, b.shape id = some x ∧ x.body ≠ .unresolved ∧ ∀ t, askedTypes s t → Actual t x.body := by
    rintro a b ho ⟨x, hx, hu, ht⟩
    obtain ⟨y, hy, hxy⟩ := outline_get ho hx
    refine ⟨y, hy, fun hn => hu ?_, fun t h => (actual_outline hxy.body t).mp (ht t h)⟩
    have := hxy.body
    rw [hn] at this
    generalize x.body = k at this
    cases this
    rfl
  rw [h3, h3']
  exact ⟨key ho, key ho.symm⟩

/-- C106: what the validators, the linters, the question about completeness and the queries of shape types find in a model depends only on
its outline. -/
theorem C106_outline (h : Heck) (a b : Model) (ha : WfModel a) (hb : WfModel b) (ho : Outline a b) : SameFindings h a b := by
  have hu := unresolved_outline ha hb ho
  refine ⟨hu, typeRefs_outline ha hb ho, naming_outline h ha hb ho, terms_outline h ha hb ho, ?_, queries_outline ha hb ho⟩
  have h1 := (C35_silent_iff a ha).1
  have h2 := (C35_silent_iff b hb).1
  have : unresolvedValidate a = [] ↔ unresolvedValidate b = [] :=
    ⟨fun e => (e ▸ hu).nil_eq.symm, fun e => (e ▸ hu).eq_nil⟩
  exact Bool.eq_iff_iff.mpr (by rw [← h1, ← h2, this])

/-! ### JSON -/

theorem sameTraits_named {a b : Traits} (h : SameTraits a b) : SameNamed a b := by
  intro k
  have := h k
  generalize AMap.get a k = x at this
  generalize AMap.get b k = y at this
  cases this
  · exact .none
  · exact .some trivial

theorem sameMember_outline {a b : MemberShape} (h : SameMemberShape a b) : OutlineMember a b := ⟨h.1, h.2.1, sameTraits_named h.2.2⟩

theorem mapRel_mono {K V : Type} [DecidableEq K] {R S : V → V → Prop} (hR : ∀ x y, R x y → S x y) {a b : AMap K V} (h : MapRel R a b) : MapRel S a b := by
  intro k
  have := h k
  generalize AMap.get a k = x at this
  generalize AMap.get b k = y at this
  cases this with
  | none => exact .none
  | some h => exact .some (hR _ _ h)

theorem sameShape_outline {a b : TopLevelShape} (h : SameShape a b) : OutlineShape a b := by
  refine ⟨h.id, sameTraits_named h.traits, ?_⟩
  have hk := h.body
  generalize a.body = k at hk
  generalize b.body = k' at hk
  cases hk with
  | simple => exact .simple
  | list h => exact .list h.2.1
  | set h => exact .set h.2.1
  | map h h' => exact .map h.2.1 h'.2.1
  | struct h => exact .struct (mapRel_mono (fun _ _ => sameMember_outline) h)
  | union h => exact .union (mapRel_mono (fun _ _ => sameMember_outline) h)
  | service => exact .service rfl rfl
  | operation => exact .operation
  | resource h => exact .resource h
  | unresolved => exact .unresolved

theorem same_outline {a b : Model} (h : SameModel a b) : Outline a b := mapRel_mono (fun _ _ => sameShape_outline) h.shapes

theorem normTraits_named (ts : Traits) : SameNamed ts (normTraits ts) := by
  intro k
  rw [normTraits, AMap.get_map_val (fun _ v => normTraitValue v)]
  cases AMap.get ts k with
  | none => exact .none
  | some v => exact .some trivial

theorem normMembers_outline (ms : AMap Str MemberShape) : MapRel OutlineMember ms (ms.map fun e => (e.1, normMember e.2)) := by
  intro k
  rw [AMap.get_map_val (fun _ v => normMember v)]
  cases AMap.get ms k with
  | none => exact .none
  | some v => exact .some ⟨rfl, rfl, normTraits_named _⟩

theorem jsonNormal_outline (m : Model) : Outline m (jsonNormal m) := by
  intro k
  rw [jsonNormal]
  simp only
  rw [AMap.get_map_val (fun _ v => normShape v)]
  cases AMap.get m.shapes k with
  | none => exact .none
  | some s =>
    refine .some ⟨rfl, normTraits_named _, ?_⟩
    obtain ⟨id, ts, body⟩ := s
    cases body with
    | simple => exact .simple
    | list => exact .list rfl
    | set => exact .set rfl
    | map => exact .map rfl rfl
    | struct => exact .struct (normMembers_outline _)
    | union => exact .union (normMembers_outline _)
    | service => exact .service rfl rfl
    | operation => exact .operation
    | resource => exact .resource (MapRel.refl (fun _ => rfl) _)
    | unresolved => exact .unresolved

theorem mapRel_trans {K V : Type} [DecidableEq K] {R : V → V → Prop} (hR : ∀ x y z, R x y → R y z → R x z) {a b c : AMap K V}
    (h : MapRel R a b) (h' : MapRel R b c) : MapRel R a c := by
  intro k
  have h1 := h k
  have h2 := h' k
  generalize AMap.get a k = x at h1
  generalize AMap.get b k = y at h1 h2
  generalize AMap.get c k = z at h2
  cases h1 with
  | none => cases h2; exact .none
  | some h => cases h2 with
    | some h' => exact .some (hR _ _ _ h h')

theorem Spec.SameNamed.trans {a b c : Traits} (h : SameNamed a b) (h' : SameNamed b c) : SameNamed a c :=
  mapRel_trans (R := fun _ _ => True) (fun _ _ _ _ _ => trivial) h h'

theorem Spec.OutlineMember.trans {a b c : MemberShape} (h : OutlineMember a b) (h' : OutlineMember b c) : OutlineMember a c :=
  ⟨h.1.trans h'.1, h.2.1.trans h'.2.1, SameNamed.trans h.2.2 h'.2.2⟩

theorem Spec.OutlineKind.trans {a b c : ShapeKind} (h : OutlineKind a b) (h' : OutlineKind b c) : OutlineKind a c := by
  cases h with
  | simple => exact h'
  | list h => cases h' with | list h' => exact .list (h.trans h')
  | set h => cases h' with | set h' => exact .set (h.trans h')
  | map h1 h2 => cases h' with | map h3 h4 => exact .map (h1.trans h3) (h2.trans h4)
  | struct h => cases h' with | struct h' => exact .struct (mapRel_trans (R := OutlineMember) (fun _ _ _ => OutlineMember.trans) h h')
  | union h => cases h' with | union h' => exact .union (mapRel_trans (R := OutlineMember) (fun _ _ _ => OutlineMember.trans) h h')
  | service h1 h2 => cases h' with | service h3 h4 => exact .service (h1.trans h3) (h2.trans h4)
  | operation => exact h'
  | resource h => cases h' with | resource h' => exact .resource (mapRel_trans (R := Eq) (fun _ _ _ => Eq.trans) h h')
  | unresolved => exact h'

theorem Spec.Outline.trans {a b c : Model} (h : Outline a b) (h' : Outline b c) : Outline a c :=
  mapRel_trans (fun _ _ _ h h' => ⟨h.id.trans h'.id, SameNamed.trans h.traits h'.traits, OutlineKind.trans h.body h'.body⟩) h h'

/-- C106: a valid model without NaNs and infinities is written as JSON, and in the model that is read from that the same is found. -/
theorem C106_json (h : Heck) (m : Model) (hw : WfModel m) (hv : ValidModel m) (hf : FiniteModel m) :
    ∃ j m', JsonWriter.modelToJson m = .ok j ∧ JsonReader.model j = .ok m' ∧ SameFindings h m m' := by
  obtain ⟨j, m', hj, hm', hs⟩ := C30_round_trip_changes m hw hv hf
  have hw' := (C30_read_model_wf j m' (modelToJson_wf hw hj) hm').1
  exact ⟨j, m', hj, hm', C106_outline h m m' hw hw' ((jsonNormal_outline m).trans (same_outline hs))⟩

/-- C106: for a model that was read from a JSON document, even the wording of the reports is the same after it is written and read. -/
theorem C106_json_again (h : Heck) (j : Json) (m : Model) (hj : WfJson j) (hm : JsonReader.model j = .ok m) :
    ∃ j' m', JsonWriter.modelToJson m = .ok j' ∧ JsonReader.model j' = .ok m' ∧ SameFindings h m m' ∧
      (TypeRefs.validate m).Perm (TypeRefs.validate m') := by
  obtain ⟨hw, hv, hf⟩ := C30_read_model_wf j m hj hm
  obtain ⟨j', m', h1, h2, h3, -⟩ := C103_json j m hj hm
  have hw' := (C30_read_model_wf j' m' (modelToJson_wf hw h1) h2).1
  exact ⟨j', m', h1, h2, C106_outline h m m' hw hw' (same_outline h3), C36_order_independent m m' hw hw' h3⟩

/-- C106: what is found in a model that was read from a text of the IDL is found in what is read from its JSON. -/
theorem C106_idl_to_json (h : Heck) (flt : Str → Option F64) (enum : List ShapeID → List ShapeID) (he : Enumerates enum) (s : Str) (m : Model)
    (hm : parseModel flt enum s = .ok m) (hf : FiniteModel m) :
    ∃ j m', JsonWriter.modelToJson m = .ok j ∧ JsonReader.model j = .ok m' ∧ SameFindings h m m' := by
  obtain ⟨hw, hv⟩ := parsed_valid he hm
  exact C106_json h m hw hv hf

/-! ### The IDL -/

theorem keptTraits_named (ts : Traits) : SameNamed ts (keptTraits ts) := by
  intro k
  rw [keptTraits, AMap.get_map_val (fun _ v => some (keptValue v))]
  cases AMap.get ts k with
  | none => exact .none
  | some v => exact .some trivial

theorem keptMembers_outline (ms : AMap Str MemberShape) : MapRel OutlineMember ms (ms.map fun e => (e.1, keptMember e.2)) := by
  intro k
  rw [AMap.get_map_val (fun _ v => keptMember v)]
  cases AMap.get ms k with
  | none => exact .none
  | some v => exact .some ⟨rfl, rfl, keptTraits_named _⟩

theorem kept_outline (s : TopLevelShape) (hs : ∀ x, s.body ≠ .set x) : OutlineShape s (kept s) := by
  refine ⟨rfl, keptTraits_named _, ?_⟩
  obtain ⟨id, ts, body⟩ := s
  cases body with
  | simple => exact .simple
  | list => exact .list rfl
  | set x => exact absurd rfl (hs x)
  | map => exact .map rfl rfl
  | struct => exact .struct (keptMembers_outline _)
  | union => exact .union (keptMembers_outline _)
  | service => exact .service rfl rfl
  | operation => exact .operation
  | resource => exact .resource (MapRel.refl (fun _ => rfl) _)
  | unresolved => exact .unresolved

/-- C106: what is found in a model that can be written in the IDL, has its shapes in one namespace and has no sets is found in what is
read from its text. -/
theorem C106_idl (h : Heck) (f : Fmt) (flt : Str → Option F64) (enum : List ShapeID → List ShapeID) (he : Enumerates enum) (m : Model) (ns : Str)
    (hm : WritableModel f flt m ns) (hn : ∀ id s, m.shape id = some s → s.body = .unresolved ∨ id.ns = ns)
    (hs : ∀ id s x, m.shape id = some s → s.body ≠ .set x) :
    ∃ m', parseModel flt enum (writeIdl f ns m) = .ok m' ∧ SameFindings h m m' := by
  obtain ⟨m', h1, h2, h3⟩ := C51_round_trip f flt enum he m ns hm
  refine ⟨m', h1, C106_outline h m m' hm.wf h3 fun id => ?_⟩
  have key := h2.shapes id
  unfold Model.shape at key
  cases hx : AMap.get m.shapes id with
  | none =>
    cases hy : AMap.get m'.shapes id with
    | none => exact .none
    | some y =>
      obtain ⟨s, hs, -⟩ := (key y).mp hy
      rw [hx] at hs; cases hs
  | some x =>
    rw [(key (kept x)).mpr ⟨x, hx, hn id x hx, rfl⟩]
    exact .some (kept_outline x fun y => hs id x y hx)

/-- Shapes that differ in a value of a trait, in metadata and in the order of members have the same outline. -/
example : Outline
    ⟨.v10, [], [(sid %s"A", ⟨sid %s"A", [(tid %s"t", none)], .struct [(%s"a", ⟨%s"a", [], sid %s"B"⟩), (%s"b", ⟨%s"b", [], sid %s"B"⟩)]⟩)]⟩
    ⟨.v10, [(%s"k", .none)], [(sid %s"A", ⟨sid %s"A", [(tid %s"t", some (.boolean true))],
      .struct [(%s"b", ⟨%s"b", [], sid %s"B"⟩), (%s"a", ⟨%s"a", [], sid %s"B"⟩)]⟩)]⟩ := by
  intro k
  simp only [AMap.get_cons, AMap.get_nil]
  by_cases hk : k = sid %s"A"
  · subst hk
    simp only [if_pos]
    refine .some ⟨rfl, fun t => ?_, .struct fun n => ?_⟩
    · simp only [AMap.get_cons, AMap.get_nil]
      split
      · exact .some trivial
      · exact .none
    · simp only [AMap.get_cons, AMap.get_nil]
      by_cases ha : %s"a" = n
      · subst ha; exact .some ⟨rfl, rfl, MapRel.refl (fun _ => trivial) _⟩
      · by_cases hb : %s"b" = n
        · subst hb; exact .some ⟨rfl, rfl, MapRel.refl (fun _ => trivial) _⟩
        · simp only [if_neg ha, if_neg hb]; exact .none
  · simp only [if_neg (Ne.symm hk)]; exact .none

/-- A model that meets the conditions of `C106_idl`. -/
example (flt : Str → Option F64) : WritableModel exFmt flt exIdl %s"a" ∧ (∀ id s, exIdl.shape id = some s → s.body = .unresolved ∨ id.ns = %s"a") ∧
    (∀ id s x, exIdl.shape id = some s → s.body ≠ .set x) := by
  refine ⟨exIdl_writable flt, fun id s h => ?_, fun id s x h => ?_⟩
  all_goals
    have := exIdl_mem h
    simp only [exIdl, List.mem_cons, List.not_mem_nil, or_false, Prod.mk.injEq] at this
    rcases this with ⟨rfl, rfl⟩ | ⟨rfl, rfl⟩ | ⟨rfl, rfl⟩ | ⟨rfl, rfl⟩
  all_goals first | exact .inr rfl | exact .inl rfl | (intro h; cases h)

end Verif
