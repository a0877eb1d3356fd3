/-
The conflict resolution rules do not see the enumeration order of maps.
-/
import Verif.MergeSame

namespace Verif
open Spec

/-! ### `Same*` are equivalences -/

theorem Spec.MapRel.trans' {K V : Type} [DecidableEq K] {R : V → V → Prop} {a b c : AMap K V} (hr : MapRel R a b)
    (hs : MapRel R b c) (h : ∀ a b c, R a b → R b c → R a c) : MapRel R a c := MapRel.trans h hr hs

theorem Spec.SameTraits.refl (a : Traits) : SameTraits a a := MapRel.refl (OptRel.refl Same.refl) a
theorem Spec.SameTraits.symm {a b : Traits} (h : SameTraits a b) : SameTraits b a :=
  MapRel.symm (fun _ _ => OptRel.symm fun _ _ => Same.symm) h
theorem Spec.SameTraits.trans {a b c : Traits} (h : SameTraits a b) (h' : SameTraits b c) : SameTraits a c :=
  MapRel.trans' h h' fun _ _ _ h h' => OptRel.trans (R := Same) (S := Same) (T := Same) (fun _ _ _ h h' => Same.trans h h') h h'

theorem Spec.SameMemberShape.refl (a : MemberShape) : SameMemberShape a a := ⟨rfl, rfl, SameTraits.refl _⟩
theorem Spec.SameMemberShape.symm {a b : MemberShape} (h : SameMemberShape a b) : SameMemberShape b a :=
  ⟨h.1.symm, h.2.1.symm, h.2.2.symm⟩
theorem Spec.SameMemberShape.trans {a b c : MemberShape} (h : SameMemberShape a b) (h' : SameMemberShape b c) :
    SameMemberShape a c := ⟨h.1.trans h'.1, h.2.1.trans h'.2.1, h.2.2.trans h'.2.2⟩
theorem Spec.SameMemberShape.sameMember {a b : MemberShape} (h : SameMemberShape a b) : SameMember a b :=
  ⟨congrArg lower h.1, h.2.1 ▸ ceq_refl _⟩

theorem Spec.SameKind.refl (a : ShapeKind) : SameKind a a := by
  cases a
  case simple => exact .simple
  case list => exact .list (SameMemberShape.refl _)
  case set => exact .set (SameMemberShape.refl _)
  case map => exact .map (SameMemberShape.refl _) (SameMemberShape.refl _)
  case struct => exact .struct (MapRel.refl SameMemberShape.refl _)
  case union => exact .union (MapRel.refl SameMemberShape.refl _)
  case service s => exact .service (MapRel.refl (fun _ => rfl) _)
  case operation => exact .operation
  case resource r => exact .resource (MapRel.refl (fun _ => rfl) _)
  case unresolved => exact .unresolved

theorem Spec.SameKind.symm {a b : ShapeKind} (h : SameKind a b) : SameKind b a := by
  cases h with
  | simple => exact .simple
  | list h => exact .list h.symm
  | set h => exact .set h.symm
  | map h h' => exact .map h.symm h'.symm
  | struct h => exact .struct (MapRel.symm (fun _ _ => SameMemberShape.symm) h)
  | union h => exact .union (MapRel.symm (fun _ _ => SameMemberShape.symm) h)
  | service h => exact .service (MapRel.symm (fun _ _ => Eq.symm) h)
  | operation => exact .operation
  | resource h => exact .resource (MapRel.symm (fun _ _ => Eq.symm) h)
  | unresolved => exact .unresolved

theorem Spec.SameKind.trans {a b c : ShapeKind} (h : SameKind a b) (h' : SameKind b c) : SameKind a c := by
  cases h with
  | simple => exact h'
  | list h => cases h' with | list h' => exact .list (h.trans h')
  | set h => cases h' with | set h' => exact .set (h.trans h')
  | map h1 h2 => cases h' with | map h1' h2' => exact .map (h1.trans h1') (h2.trans h2')
  | struct h => cases h' with | struct h' => exact .struct (MapRel.trans' h h' fun _ _ _ h h' => SameMemberShape.trans h h')
  | union h => cases h' with | union h' => exact .union (MapRel.trans' h h' fun _ _ _ h h' => SameMemberShape.trans h h')
  | service h => cases h' with | service h' => exact .service (MapRel.trans' h h' fun _ _ _ h h' => Eq.trans h h')
  | operation => exact h'
  | resource h => cases h' with | resource h' => exact .resource (MapRel.trans' h h' fun _ _ _ h h' => Eq.trans h h')
  | unresolved => exact h'

theorem Spec.SameKind.sameDef {a b : ShapeKind} (h : SameKind a b) : SameDef a b := by
  have hm : ∀ x y : MemberShape, SameMemberShape x y → SameMember x y := fun _ _ => SameMemberShape.sameMember
  cases h with
  | simple => exact .simple
  | list h => exact .list (hm _ _ h)
  | set h => exact .set (hm _ _ h)
  | map h h' => exact .map (hm _ _ h) (hm _ _ h')
  | struct h => exact .struct (MapRel.mono hm h)
  | union h => exact .union (MapRel.mono hm h)
  | service h =>
    refine .service rfl (ListRel.refl ceq_refl _) (ListRel.refl ceq_refl _) ?_
    exact MapRel.mono (fun a b e => congrArg lower e) h
  | operation => exact SameDef.refl _
  | resource h =>
    refine .resource (MapRel.mono (fun a b e => e ▸ ceq_refl _) h) ?_ (ListRel.refl ceq_refl _)
      (ListRel.refl ceq_refl _) (ListRel.refl ceq_refl _)
    intro l; cases l <;> exact OptRel.refl ceq_refl _
  | unresolved => exact .unresolved

theorem Spec.SameKind.unresolved_iff {a b : ShapeKind} (h : SameKind a b) : a = .unresolved ↔ b = .unresolved := by
  cases h <;> simp

theorem Spec.SameShape.refl (a : TopLevelShape) : SameShape a a := ⟨rfl, SameTraits.refl _, SameKind.refl _⟩
theorem Spec.SameShape.symm {a b : TopLevelShape} (h : SameShape a b) : SameShape b a := ⟨h.id.symm, h.traits.symm, h.body.symm⟩
theorem Spec.SameShape.trans {a b c : TopLevelShape} (h : SameShape a b) (h' : SameShape b c) : SameShape a c :=
  ⟨h.id.trans h'.id, h.traits.trans h'.traits, h.body.trans h'.body⟩
theorem Spec.SameModel.refl (a : Model) : SameModel a a := ⟨rfl, MapRel.refl Same.refl _, MapRel.refl SameShape.refl _⟩
theorem Spec.SameModel.symm {a b : Model} (h : SameModel a b) : SameModel b a :=
  ⟨h.version.symm, MapRel.symm (fun _ _ => Same.symm) h.metadata, MapRel.symm (fun _ _ => SameShape.symm) h.shapes⟩
theorem Spec.SameModel.trans {a b c : Model} (h : SameModel a b) (h' : SameModel b c) : SameModel a c :=
  ⟨h.version.trans h'.version, MapRel.trans' h.metadata h'.metadata fun _ _ _ h h' => Same.trans h h',
    MapRel.trans' h.shapes h'.shapes fun _ _ _ h h' => SameShape.trans h h'⟩

/-! ### Merging same things gives same things -/

theorem Same.array_append {a a' b b' : List Value} (h : Same (.array a) (.array a')) (h' : Same (.array b) (.array b')) :
    Same (.array (a ++ b)) (.array (a' ++ b')) := by
  cases h with | array hl h =>
  cases h' with | array hl' h' =>
  refine .array (by simp [hl, hl']) fun i x y hx hy => ?_
  by_cases hi : i < a.length
  · rw [List.getElem?_append_left hi] at hx
    rw [List.getElem?_append_left (hl ▸ hi)] at hy
    exact h i x y hx hy
  · have hi := Nat.le_of_not_lt hi
    rw [List.getElem?_append_right hi] at hx
    rw [List.getElem?_append_right (hl ▸ hi)] at hy
    exact h' _ x y hx (hl ▸ hy)

theorem Same.isArray_eq {a b : Value} (h : Same a b) : a.isArray = b.isArray := by cases h <;> rfl

theorem Spec.MetaMerge.same {a b c a' b' : Value} (h : MetaMerge a b c) (ha : Same a a') (hb : Same b b') :
    ∃ c', MetaMerge a' b' c' ∧ Same c c' := by
  cases h with
  | concat =>
    have ha' := ha; have hb' := hb
    cases ha' with | array =>
    cases hb' with | array =>
    exact ⟨_, .concat, Same.array_append ha hb⟩
  | equal hna he =>
    refine ⟨a', .equal ?_ (VEq.of_same_left (Same.symm ha) (VEq.of_same_right he hb)), ha⟩
    rwa [← Same.isArray_eq ha, ← Same.isArray_eq hb]

theorem MetaMerge.functional {a b c c' : Value} (h : MetaMerge a b c) (h' : MetaMerge a b c') : c = c' := by
  cases h with
  | concat => cases h' with
    | concat => rfl
    | equal hn => exact absurd ⟨rfl, rfl⟩ hn
  | equal hn => cases h' with
    | concat => exact absurd ⟨rfl, rfl⟩ hn
    | equal => rfl

theorem TraitMerge.functional {a b c c' : TraitValue} (h : TraitMerge a b c) (h' : TraitMerge a b c') : c = c' := by
  cases h with
  | concat => cases h' with
    | concat => rfl
    | equal hn => exact absurd ⟨rfl, rfl⟩ hn
  | valueless => cases h'; rfl
  | equal hn => cases h' with
    | concat => exact absurd ⟨rfl, rfl⟩ hn
    | equal => rfl

theorem Spec.TraitMerge.same {a b c a' b' : TraitValue} (h : TraitMerge a b c) (ha : OptRel Same a a') (hb : OptRel Same b b') :
    ∃ c', TraitMerge a' b' c' ∧ OptRel Same c c' := by
  cases h with
  | concat =>
    cases ha with | some ha =>
    cases hb with | some hb =>
    have ha' := ha; have hb' := hb
    cases ha' with | array =>
    cases hb' with | array =>
    exact ⟨_, .concat, .some (Same.array_append ha hb)⟩
  | valueless =>
    cases ha; cases hb
    exact ⟨_, .valueless, .none⟩
  | equal hna he =>
    cases ha with | some ha =>
    cases hb with | some hb =>
    refine ⟨_, .equal ?_ (VEq.of_same_left (Same.symm ha) (VEq.of_same_right he hb)), .some ha⟩
    rwa [← Same.isArray_eq ha, ← Same.isArray_eq hb]

theorem BodyMerge.same_result {a b c a' b' c' : ShapeKind} (h : BodyMerge a b c) (h' : BodyMerge a' b' c') (ha : SameKind a a')
    (hb : SameKind b b') : SameKind c c' := by
  cases h with
  | same h1 h2 h3 =>
    cases h' with
    | same => exact ha
    | resolve => exact absurd (ha.unresolved_iff.mpr rfl) h1
    | keep => exact ha
  | resolve h1 =>
    cases h' with
    | same h1' => exact absurd (ha.unresolved_iff.mp rfl) h1'
    | resolve => exact hb
    | keep => exact absurd (hb.unresolved_iff.mpr rfl) h1
  | keep =>
    cases h' with
    | same _ h2 => exact ha
    | resolve h1 => exact absurd (hb.unresolved_iff.mp rfl) h1
    | keep => exact ha

/-- A key-wise combination is determined up to a relation the combination respects. -/
theorem MapMerge.related {K V : Type} [DecidableEq K] {M : V → V → V → Prop} {R : V → V → Prop} {a b c a' b' c' : AMap K V}
    (hM : ∀ k x y z x' y' z', a.get k = some x → b.get k = some y → M x y z → R x x' → R y y' → M x' y' z' → R z z')
    (h : MapMerge M a b c) (h' : MapMerge M a' b' c') (ha : MapRel R a a') (hb : MapRel R b b') : MapRel R c c' := by
  intro k
  have h1 := h k; have h2 := h' k; have h3 := ha k; have h4 := hb k; have hM := hM k
  generalize AMap.get a k = A at *
  generalize AMap.get b k = B at *
  generalize AMap.get c k = C at *
  generalize AMap.get a' k = A' at *
  generalize AMap.get b' k = B' at *
  generalize AMap.get c' k = C' at *
  cases h1 with
  | neither => cases h3; cases h4; cases h2; exact .none
  | left => cases h3 with | some h3 => cases h4; cases h2; exact .some h3
  | right => cases h4 with | some h4 => cases h3; cases h2; exact .some h4
  | both hm =>
    cases h3 with | some h3 =>
    cases h4 with | some h4 =>
    cases h2 with | both hm' =>
    exact .some (hM _ _ _ _ _ _ rfl rfl hm h3 h4 hm')

theorem Spec.ShapeMerge.same {a b c a' b' c' : TopLevelShape} (h : ShapeMerge a b c) (h' : ShapeMerge a' b' c')
    (ha : SameShape a a') (hb : SameShape b b') : SameShape c c' := by
  refine ⟨h.idl.trans (ha.id.trans h'.idl.symm), ?_, BodyMerge.same_result h.body h'.body ha.body hb.body⟩
  refine MapMerge.related ?_ h.traits h'.traits ha.traits hb.traits
  intro _ x y z x' y' z' _ _ hm hx hy hm'
  obtain ⟨z'', h1, h2⟩ := hm.same hx hy
  exact TraitMerge.functional h1 hm' ▸ h2

theorem Spec.ModelMerge.same {a b c a' b' c' : Model} (h : ModelMerge a b c) (h' : ModelMerge a' b' c')
    (ha : SameModel a a') (hb : SameModel b b') : SameModel c c' := by
  refine ⟨h.versionl.trans (ha.version.trans h'.versionl.symm), ?_, ?_⟩
  · refine MapMerge.related ?_ h.metadata h'.metadata ha.metadata hb.metadata
    intro _ x y z x' y' z' _ _ hm hx hy hm'
    obtain ⟨z'', h1, h2⟩ := hm.same hx hy
    exact MetaMerge.functional h1 hm' ▸ h2
  · exact MapMerge.related (fun _ x y z x' y' z' _ _ hm hx hy hm' => hm.same hm' hx hy) h.shapes h'.shapes ha.shapes hb.shapes

theorem Spec.LegalTraits.same {a b : Traits} (h : LegalTraits a) (hab : SameTraits a b) : LegalTraits b := by
  intro id v hv
  have := hab id
  rw [hv] at this
  obtain ⟨w, hw, _⟩ := this.some_right
  exact h id w hw

theorem Spec.ShapeMergeable.same {a b a' b' : TopLevelShape} (h : ShapeMergeable a b) (ha : SameShape a a') (hb : SameShape b b') :
    ShapeMergeable a' b' := by
  refine ⟨?_, ?_, LegalTraits.same h.legal hb.traits⟩
  · rcases h.body with h | h | h
    · exact .inl (ha.body.unresolved_iff.mp h)
    · exact .inr (.inl (hb.body.unresolved_iff.mp h))
    · exact .inr (.inr (ha.body.symm.sameDef.trans (h.trans hb.body.sameDef)))
  · intro t x' y' hx' hy'
    have h1 := ha.traits t; have h2 := hb.traits t
    rw [hx'] at h1; rw [hy'] at h2
    obtain ⟨x, hx, hxx⟩ := h1.some_right
    obtain ⟨y, hy, hyy⟩ := h2.some_right
    obtain ⟨z, hz⟩ := h.traits t x y hx hy
    obtain ⟨z', hz', _⟩ := hz.same hxx hyy
    exact ⟨z', hz'⟩

theorem Spec.Mergeable.same {a b a' b' : Model} (h : Mergeable a b) (ha : SameModel a a') (hb : SameModel b b') :
    Mergeable a' b' := by
  refine ⟨ha.version.symm.trans (h.version.trans hb.version), ?_, ?_⟩
  · intro t x' y' hx' hy'
    have h1 := ha.metadata t; have h2 := hb.metadata t
    rw [hx'] at h1; rw [hy'] at h2
    obtain ⟨x, hx, hxx⟩ := h1.some_right
    obtain ⟨y, hy, hyy⟩ := h2.some_right
    obtain ⟨z, hz⟩ := h.metadata t x y hx hy
    obtain ⟨z', hz', _⟩ := hz.same hxx hyy
    exact ⟨z', hz'⟩
  · intro t x' y' hx' hy'
    have h1 := ha.shapes t; have h2 := hb.shapes t
    rw [show AMap.get a'.shapes t = some x' from hx'] at h1
    rw [show AMap.get b'.shapes t = some y' from hy'] at h2
    obtain ⟨x, hx, hxx⟩ := h1.some_right
    obtain ⟨y, hy, hyy⟩ := h2.some_right
    exact (h.shapes t x y hx hy).same hxx hyy

end Verif
