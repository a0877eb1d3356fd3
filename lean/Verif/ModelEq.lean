/-
`==` on models (derived `PartialEq`): an independent description, and property theorems C45.
-/
import Verif.MergeProps
import Verif.JsonSpec

namespace Verif.Spec

/-- Equal trait maps: the same trait ids, with equal values (a valueless trait equals only a valueless trait). -/
def EqTraits (a b : Traits) : Prop := MapRel (OptRel VEq) a b

def EqMember (a b : MemberShape) : Prop := SameName a.id b.id ∧ EqTraits a.traits b.traits ∧ SameId a.target b.target

/-- Equal bodies: the same type and equal contents; names and ids ignore ASCII case, reference lists are ordered. -/
inductive EqKind : ShapeKind → ShapeKind → Prop
  | simple {s} : EqKind (.simple s) (.simple s)
  | list {a b} : EqMember a b → EqKind (.list a) (.list b)
  | set {a b} : EqMember a b → EqKind (.set a) (.set b)
  | map {k v k' v'} : EqMember k k' → EqMember v v' → EqKind (.map k v) (.map k' v')
  | struct {a b} : MapRel EqMember a b → EqKind (.struct a) (.struct b)
  | union {a b} : MapRel EqMember a b → EqKind (.union a) (.union b)
  | service {a b : Service} : a.version = b.version → ListRel SameId a.operations b.operations →
      ListRel SameId a.resources b.resources → MapRel SameName a.renames b.renames → EqKind (.service a) (.service b)
  | operation {a b : Operation} : OptRel SameId a.input b.input → OptRel SameId a.output b.output →
      ListRel SameId a.errors b.errors → EqKind (.operation a) (.operation b)
  | resource {a b : Resource} : MapRel SameId a.identifiers b.identifiers →
      (∀ l, OptRel SameId (a.lifecycle l) (b.lifecycle l)) → ListRel SameId a.operations b.operations →
      ListRel SameId a.collectionOperations b.collectionOperations → ListRel SameId a.resources b.resources →
      EqKind (.resource a) (.resource b)
  | unresolved : EqKind .unresolved .unresolved

structure EqShape (a b : TopLevelShape) : Prop where
  id : SameId a.id b.id
  traits : EqTraits a.traits b.traits
  body : EqKind a.body b.body

/-- Equal models. -/
structure EqModel (a b : Model) : Prop where
  version : a.version = b.version
  metadata : MapRel VEq a.metadata b.metadata
  shapes : MapRel EqShape a.shapes b.shapes

end Verif.Spec

namespace Verif
open Spec

theorem Spec.MapRel.congr' {K V W : Type} [DecidableEq K] {R S : V → W → Prop} {a : AMap K V} {b : AMap K W}
    (h : ∀ k x y, a.get k = some x → b.get k = some y → (R x y ↔ S x y)) : MapRel R a b ↔ MapRel S a b :=
  ⟨MapRel.mono' fun k x y hx hy => (h k x y hx hy).mp, MapRel.mono' fun k x y hx hy => (h k x y hx hy).mpr⟩

theorem traitsEq_iff {a b : Traits} (ha : WfTraits a) (hb : WfTraits b) : traitsEq a b = true ↔ EqTraits a b := by
  unfold traitsEq EqTraits
  rw [hmEq_iff ha.nodup hb.nodup]
  apply MapRel.congr'
  intro k x y hx hy
  unfold traitValueEq
  rw [optEq_iff]
  constructor
  · intro h
    cases h with
    | none => exact .none
    | some h => exact .some ((Value.veq_iff _ _ (ha.values _ _ hx) (hb.values _ _ hy)).mp h)
  · intro h
    cases h with
    | none => exact .none
    | some h => exact .some ((Value.veq_iff _ _ (ha.values _ _ hx) (hb.values _ _ hy)).mpr h)

theorem member_meq_iff {a b : MemberShape} (ha : WfTraits a.traits) (hb : WfTraits b.traits) : a.meq b = true ↔ EqMember a b := by
  simp only [MemberShape.meq, Bool.and_eq_true, identEq_iff, traitsEq_iff ha hb, EqMember, SameName, SameId, and_assoc]

theorem keq_iff {a b : ShapeKind} (ha : WfKind a) (hb : WfKind b) : a.keq b = true ↔ EqKind a b := by
  cases a <;> cases b
  case simple.simple s t =>
    simp only [ShapeKind.keq, beq_iff_eq]
    exact ⟨by rintro rfl; exact .simple, by rintro ⟨⟩; rfl⟩
  case list.list l r =>
    simp only [ShapeKind.keq, member_meq_iff ha hb]
    exact ⟨.list, by rintro ⟨⟩; assumption⟩
  case set.set l r =>
    simp only [ShapeKind.keq, member_meq_iff ha hb]
    exact ⟨.set, by rintro ⟨⟩; assumption⟩
  case map.map lk lv rk rv =>
    simp only [ShapeKind.keq, Bool.and_eq_true, member_meq_iff ha.1 hb.1, member_meq_iff ha.2 hb.2]
    exact ⟨fun h => .map h.1 h.2, by rintro ⟨⟩; exact ⟨by assumption, by assumption⟩⟩
  case struct.struct l r =>
    simp only [ShapeKind.keq]
    rw [hmEq_iff ha.nodup hb.nodup, MapRel.congr' fun k x y hx hy => member_meq_iff (ha.traits k x hx) (hb.traits k y hy)]
    exact ⟨.struct, by rintro ⟨⟩; assumption⟩
  case union.union l r =>
    simp only [ShapeKind.keq]
    rw [hmEq_iff ha.nodup hb.nodup, MapRel.congr' fun k x y hx hy => member_meq_iff (ha.traits k x hx) (hb.traits k y hy)]
    exact ⟨.union, by rintro ⟨⟩; assumption⟩
  case service.service l r =>
    simp only [ShapeKind.keq, Service.seq, Bool.and_eq_true, beq_iff_eq, vecEq_iff, hmEq_iff ha hb, identEq_iff]
    exact ⟨fun ⟨⟨⟨h1, h2⟩, h3⟩, h4⟩ => .service h1 h2 h3 h4, by
      rintro ⟨⟩; exact ⟨⟨⟨by assumption, by assumption⟩, by assumption⟩, by assumption⟩⟩
  case operation.operation l r =>
    simp only [ShapeKind.keq, Operation.oeq, Bool.and_eq_true, vecEq_iff, optEq_iff]
    refine ⟨fun ⟨⟨h1, h2⟩, h3⟩ => .operation h1 h2 h3, ?_⟩
    intro h
    cases h with
    | operation h1 h2 h3 => exact ⟨⟨h1, h2⟩, h3⟩
  case resource.resource l r =>
    simp only [ShapeKind.keq, Resource.req, Bool.and_eq_true, vecEq_iff, optEq_iff, hmEq_iff ha hb]
    constructor
    · rintro ⟨⟨⟨⟨⟨⟨⟨⟨⟨h1, h2⟩, h3⟩, h4⟩, h5⟩, h6⟩, h7⟩, h8⟩, h9⟩, h10⟩
      exact .resource h1 ((lifecycle_iff l r).mpr ⟨h2, h3, h4, h5, h6, h7⟩) h8 h9 h10
    · intro h
      cases h with
      | resource h1 h2 h3 h4 h5 =>
        obtain ⟨a, b, c, d, e, f⟩ := (lifecycle_iff l r).mp h2
        exact ⟨⟨⟨⟨⟨⟨⟨⟨⟨h1, a⟩, b⟩, c⟩, d⟩, e⟩, f⟩, h3⟩, h4⟩, h5⟩
  case unresolved.unresolved => simp only [ShapeKind.keq, true_iff]; exact .unresolved
  all_goals
    simp only [ShapeKind.keq, Bool.false_eq_true, false_iff]
    rintro ⟨⟩

theorem teq_iff {a b : TopLevelShape} (ha : WfShape a) (hb : WfShape b) : a.teq b = true ↔ EqShape a b := by
  simp only [TopLevelShape.teq, Bool.and_eq_true, traitsEq_iff ha.traits hb.traits, keq_iff ha.body hb.body]
  exact ⟨fun ⟨⟨h1, h2⟩, h3⟩ => ⟨h1, h2, h3⟩, fun ⟨h1, h2, h3⟩ => ⟨⟨h1, h2⟩, h3⟩⟩

/-! ### C45 Model equality -/

/-- `==` on models is structural equality: the same version, the same metadata keys with equal values, the same shape ids
with equal shapes. -/
theorem C45_meq_iff (a b : Model) (ha : WfModel a) (hb : WfModel b) : a.meq b = true ↔ EqModel a b := by
  unfold Model.meq
  rw [Bool.and_eq_true, Bool.and_eq_true, decide_eq_true_eq, hmEq_iff ha.metaNodup hb.metaNodup, hmEq_iff ha.nodup hb.nodup,
    MapRel.congr' fun k x y hx hy => Value.veq_iff x y (ha.metaValues k x hx) (hb.metaValues k y hy),
    MapRel.congr' fun k x y hx hy => teq_iff (ha.shapes k x hx) (hb.shapes k y hy)]
  exact ⟨fun ⟨⟨h1, h2⟩, h3⟩ => ⟨h1, h2, h3⟩, fun ⟨h1, h2, h3⟩ => ⟨⟨h1, h2⟩, h3⟩⟩

theorem veq_symm' (a b : Value) (h : VEq a b) : VEq b a := VEq.symm h
theorem veq_trans' (a b c : Value) (h : VEq a b) (h' : VEq b c) : VEq a c := VEq.trans h h'
theorem optVeq_symm (a b : TraitValue) (h : OptRel VEq a b) : OptRel VEq b a := OptRel.symm veq_symm' h
theorem optVeq_trans (a b c : TraitValue) (h : OptRel VEq a b) (h' : OptRel VEq b c) : OptRel VEq a c :=
  OptRel.trans veq_trans' h h'

theorem EqTraits.symm {a b : Traits} (h : EqTraits a b) : EqTraits b a := MapRel.symm optVeq_symm h
theorem EqTraits.trans {a b c : Traits} (h : EqTraits a b) (h' : EqTraits b c) : EqTraits a c := MapRel.trans optVeq_trans h h'

theorem EqMember.symm {a b : MemberShape} (h : EqMember a b) : EqMember b a := ⟨h.1.symm, EqTraits.symm h.2.1, ceq_symm h.2.2⟩
theorem EqMember.trans {a b c : MemberShape} (h : EqMember a b) (h' : EqMember b c) : EqMember a c :=
  ⟨h.1.trans h'.1, EqTraits.trans h.2.1 h'.2.1, ceq_trans h.2.2 h'.2.2⟩

theorem eqMember_trans (a b c : MemberShape) (h : EqMember a b) (h' : EqMember b c) : EqMember a c := EqMember.trans h h'
theorem sameName_trans (a b c : Str) (h : SameName a b) (h' : SameName b c) : SameName a c := Eq.trans h h'

theorem sameId_symm (a b : ShapeID) (h : SameId a b) : SameId b a := ceq_symm h
theorem sameId_trans (a b c : ShapeID) (h : SameId a b) (h' : SameId b c) : SameId a c := ceq_trans h h'

theorem EqKind.symm {a b : ShapeKind} (h : EqKind a b) : EqKind b a := by
  cases h with
  | simple => exact .simple
  | list h => exact .list (EqMember.symm h)
  | set h => exact .set (EqMember.symm h)
  | map h h' => exact .map (EqMember.symm h) (EqMember.symm h')
  | struct h => exact .struct (MapRel.symm (fun _ _ h => EqMember.symm h) h)
  | union h => exact .union (MapRel.symm (fun _ _ h => EqMember.symm h) h)
  | service h1 h2 h3 h4 =>
    exact .service h1.symm (ListRel.symm sameId_symm h2) (ListRel.symm sameId_symm h3) (MapRel.symm (fun _ _ h => Eq.symm h) h4)
  | operation h1 h2 h3 =>
    exact .operation (OptRel.symm sameId_symm h1) (OptRel.symm sameId_symm h2) (ListRel.symm sameId_symm h3)
  | resource h1 h2 h3 h4 h5 =>
    exact .resource (MapRel.symm sameId_symm h1) (fun l => OptRel.symm sameId_symm (h2 l)) (ListRel.symm sameId_symm h3)
      (ListRel.symm sameId_symm h4) (ListRel.symm sameId_symm h5)
  | unresolved => exact .unresolved

theorem EqKind.trans {a b c : ShapeKind} (h : EqKind a b) (h' : EqKind b c) : EqKind a c := by
  cases h with
  | simple => cases h'; exact .simple
  | list h => cases h' with | list h' => exact .list (EqMember.trans h h')
  | set h => cases h' with | set h' => exact .set (EqMember.trans h h')
  | map h g => cases h' with | map h' g' => exact .map (EqMember.trans h h') (EqMember.trans g g')
  | struct h => cases h' with | struct h' => exact .struct (MapRel.trans eqMember_trans h h')
  | union h => cases h' with | union h' => exact .union (MapRel.trans eqMember_trans h h')
  | service h1 h2 h3 h4 =>
    cases h' with
    | service g1 g2 g3 g4 =>
      exact .service (h1.trans g1) (ListRel.trans sameId_trans h2 g2) (ListRel.trans sameId_trans h3 g3)
        (MapRel.trans sameName_trans h4 g4)
  | operation h1 h2 h3 =>
    cases h' with
    | operation g1 g2 g3 =>
      exact .operation (OptRel.trans sameId_trans h1 g1) (OptRel.trans sameId_trans h2 g2) (ListRel.trans sameId_trans h3 g3)
  | resource h1 h2 h3 h4 h5 =>
    cases h' with
    | resource g1 g2 g3 g4 g5 =>
      exact .resource (MapRel.trans sameId_trans h1 g1) (fun l => OptRel.trans sameId_trans (h2 l) (g2 l))
        (ListRel.trans sameId_trans h3 g3) (ListRel.trans sameId_trans h4 g4) (ListRel.trans sameId_trans h5 g5)
  | unresolved => cases h'; exact .unresolved

theorem EqShape.symm {a b : TopLevelShape} (h : EqShape a b) : EqShape b a := ⟨ceq_symm h.id, EqTraits.symm h.traits, EqKind.symm h.body⟩
theorem EqShape.trans {a b c : TopLevelShape} (h : EqShape a b) (h' : EqShape b c) : EqShape a c :=
  ⟨ceq_trans h.id h'.id, EqTraits.trans h.traits h'.traits, EqKind.trans h.body h'.body⟩

theorem eqShape_trans (a b c : TopLevelShape) (h : EqShape a b) (h' : EqShape b c) : EqShape a c := EqShape.trans h h'

theorem EqModel.symm {a b : Model} (h : EqModel a b) : EqModel b a :=
  ⟨h.version.symm, MapRel.symm veq_symm' h.metadata, MapRel.symm (fun _ _ h => EqShape.symm h) h.shapes⟩
theorem EqModel.trans {a b c : Model} (h : EqModel a b) (h' : EqModel b c) : EqModel a c :=
  ⟨h.version.trans h'.version, MapRel.trans veq_trans' h.metadata h'.metadata,
   MapRel.trans eqShape_trans h.shapes h'.shapes⟩

/-- `==` on models is symmetric and transitive. -/
theorem C45_meq_symm_trans (a b c : Model) (ha : WfModel a) (hb : WfModel b) (hc : WfModel c) :
    a.meq b = b.meq a ∧ (a.meq b = true → b.meq c = true → a.meq c = true) := by
  constructor
  · rw [Bool.eq_iff_iff, C45_meq_iff a b ha hb, C45_meq_iff b a hb ha]
    exact ⟨EqModel.symm, EqModel.symm⟩
  · rw [C45_meq_iff a b ha hb, C45_meq_iff b c hb hc, C45_meq_iff a c ha hc]
    exact EqModel.trans

/-! #### Enumeration order, reflexivity -/

theorem veq_of_same {a b : Value} (ha : a.Wf) (hn : ¬ HasNaN a) (h : Same a b) : VEq a b :=
  VEq.of_same_right ((VEq.refl_iff a ha).mpr hn) h

theorem EqTraits.of_same {a b : Traits} (ha : WfTraits a) (hn : TraitsAll (fun v => ¬ HasNaN v) a) (h : SameTraits a b) : EqTraits a b := by
  refine MapRel.mono' ?_ h
  intro k x y hx hy hxy
  cases hxy with
  | none => exact .none
  | some h => exact .some (veq_of_same (ha.values _ _ hx) (hn _ _ hx) h)

theorem EqMember.of_same {a b : MemberShape} (ha : WfTraits a.traits) (hn : TraitsAll (fun v => ¬ HasNaN v) a.traits)
    (h : SameMemberShape a b) : EqMember a b :=
  ⟨by unfold SameName; rw [h.1], EqTraits.of_same ha hn h.2.2, by unfold SameId; rw [h.2.1]; exact ceq_refl _⟩

theorem sameId_refl (a : ShapeID) : SameId a a := ceq_refl a

theorem EqKind.of_same {a b : ShapeKind} (ha : WfKind a) (hn : KindAll (fun v => ¬ HasNaN v) a) (h : SameKind a b) : EqKind a b := by
  cases h with
  | simple => exact .simple
  | list h => exact .list (EqMember.of_same ha hn h)
  | set h => exact .set (EqMember.of_same ha hn h)
  | map h h' => exact .map (EqMember.of_same ha.1 hn.1 h) (EqMember.of_same ha.2 hn.2 h')
  | struct h => exact .struct (MapRel.mono' (fun k x y hx hy h => EqMember.of_same (ha.traits k x hx) (hn k x hx) h) h)
  | union h => exact .union (MapRel.mono' (fun k x y hx hy h => EqMember.of_same (ha.traits k x hx) (hn k x hx) h) h)
  | service h =>
    exact .service rfl (ListRel.refl sameId_refl _) (ListRel.refl sameId_refl _) (MapRel.mono (fun _ _ h => by subst h; rfl) h)
  | operation => exact .operation (OptRel.refl sameId_refl _) (OptRel.refl sameId_refl _) (ListRel.refl sameId_refl _)
  | resource h =>
    refine .resource (MapRel.mono (fun _ _ h => by subst h; exact sameId_refl _) h) (fun l => ?_) (ListRel.refl sameId_refl _)
      (ListRel.refl sameId_refl _) (ListRel.refl sameId_refl _)
    cases l <;> exact OptRel.refl sameId_refl _
  | unresolved => exact .unresolved

theorem EqModel.of_same {a b : Model} (ha : WfModel a) (hn : ModelAll (fun v => ¬ HasNaN v) a) (h : SameModel a b) : EqModel a b :=
  ⟨h.version, MapRel.mono' (fun k x y hx _ h => veq_of_same (ha.metaValues k x hx) (hn.1 k x hx) h) h.metadata,
   MapRel.mono' (fun k x y hx _ h => ⟨by unfold SameId; rw [h.id]; exact ceq_refl _,
     EqTraits.of_same (ha.shapes k x hx).traits (hn.2 k x hx).1 h.traits,
     EqKind.of_same (ha.shapes k x hx).body (hn.2 k x hx).2 h.body⟩) h.shapes⟩

/-- A model without NaNs equals every model that differs from it only in the enumeration order of maps. -/
theorem C45_order_independent (a b : Model) (ha : WfModel a) (hb : WfModel b) (hn : ModelAll (fun v => ¬ HasNaN v) a)
    (h : SameModel a b) : a.meq b = true := (C45_meq_iff a b ha hb).mpr (EqModel.of_same ha hn h)

theorem EqTraits.nan {a : Traits} (ha : WfTraits a) (h : EqTraits a a) : TraitsAll (fun v => ¬ HasNaN v) a := by
  intro id v hv
  have := h id
  rw [hv] at this
  cases this with
  | some h => cases h with
    | some h => exact (VEq.refl_iff v (ha.values id v hv)).mp h

/-- `==` on models is reflexive exactly on models without NaNs. -/
theorem C45_refl_iff (a : Model) (ha : WfModel a) : a.meq a = true ↔ ModelAll (fun v => ¬ HasNaN v) a := by
  constructor
  · rw [C45_meq_iff a a ha ha]
    intro h
    refine ⟨?_, ?_⟩
    · intro k v hv
      have := h.metadata k
      rw [hv] at this
      cases this with | some h => exact (VEq.refl_iff v (ha.metaValues k v hv)).mp h
    · intro id s hs
      have := h.shapes id
      unfold Model.shape at hs
      rw [hs] at this
      have hw := ha.shapes id s hs
      cases this with
      | some h =>
        refine ⟨EqTraits.nan hw.traits h.traits, ?_⟩
        have hb := hw.body
        have he := h.body
        cases hk : s.body <;> rw [hk] at hb he <;> try trivial
        case list m => cases he with | list h => exact EqTraits.nan hb h.2.1
        case set m => cases he with | set h => exact EqTraits.nan hb h.2.1
        case map k v => cases he with | map h h' => exact ⟨EqTraits.nan hb.1 h.2.1, EqTraits.nan hb.2 h'.2.1⟩
        case struct ms =>
          cases he with
          | struct h =>
            intro k m hm
            have := h k
            rw [hm] at this
            cases this with | some h => exact EqTraits.nan (hb.traits k m hm) h.2.1
        case union ms =>
          cases he with
          | union h =>
            intro k m hm
            have := h k
            rw [hm] at this
            cases this with | some h => exact EqTraits.nan (hb.traits k m hm) h.2.1
  · intro hn
    exact C45_order_independent a a ha ha hn (SameModel.refl a)

example : WfModel exModel ∧ ModelAll (fun v => ¬ HasNaN v) exModel := by
  refine ⟨exModel_wf, (C45_refl_iff _ exModel_wf).mp ?_⟩
  decide

end Verif
