/-
C109: converting each of several files to JSON before they are put together.
-/
import Verif.Pipeline

namespace Verif
open Spec

theorem normTraits_get (ts : Traits) (t : ShapeID) : (normTraits ts).get t = (ts.get t).map normTraitValue :=
  AMap.get_map_val (fun _ v => normTraitValue v) ts t

theorem jsonNormal_get (m : Model) (id : ShapeID) : (jsonNormal m).shapes.get id = (m.shapes.get id).map normShape :=
  AMap.get_map_val (fun _ v => normShape v) m.shapes id

theorem traitMerge_norm {x y z : TraitValue} (h : TraitMerge x y z) : TraitMerge (normTraitValue x) (normTraitValue y) (normTraitValue z) := by
  cases h with
  | concat => exact .concat
  | valueless => exact .equal (by simp [Value.isArray]) (.object (fun _ => rfl) fun _ _ _ h => by cases h)
  | equal h1 h2 => exact .equal h1 h2

theorem combine_map {V : Type} {M M' : V → V → V → Prop} {f : V → V} (hf : ∀ x y z, M x y z → M' (f x) (f y) (f z)) {x y z : Option V}
    (h : Combine M x y z) : Combine M' (x.map f) (y.map f) (z.map f) := by
  cases h with
  | neither => exact .neither
  | left => exact .left
  | right => exact .right
  | both h => exact .both (hf _ _ _ h)

theorem normMember_same {a b : MemberShape} (h : SameMember a b) : SameMember (normMember a) (normMember b) := h

theorem normNamed_same {a b : MemberShape} (h : SameMember a b) : SameMember (normNamed a) (normNamed b) := ⟨rfl, h.2⟩

theorem normMembers_targets {a b : AMap Str MemberShape} (h : MapRel SameMember a b) :
    MapRel SameMember (a.map fun e => (e.1, normMember e.2)) (b.map fun e => (e.1, normMember e.2)) := by
  intro k
  rw [AMap.get_map_val (fun _ v => normMember v), AMap.get_map_val (fun _ v => normMember v)]
  have := h k
  generalize AMap.get a k = x at this
  generalize AMap.get b k = y at this
  cases this with
  | none => exact .none
  | some h => exact .some h

theorem sameDef_norm {a b : ShapeKind} (h : SameDef a b) : SameDef (normKind a) (normKind b) := by
  cases h with
  | simple => exact .simple
  | list h => exact .list (normNamed_same h)
  | set h => exact .set (normNamed_same h)
  | map h h' => exact .map (normNamed_same h) (normNamed_same h')
  | struct h => exact .struct (normMembers_targets h)
  | union h => exact .union (normMembers_targets h)
  | service h1 h2 h3 h4 => exact .service h1 h2 h3 h4
  | operation h1 h2 h3 => exact .operation h1 h2 h3
  | resource h1 h2 h3 h4 h5 => exact .resource h1 h2 h3 h4 h5
  | unresolved => exact .unresolved

theorem normKind_unresolved {k : ShapeKind} : normKind k = .unresolved ↔ k = .unresolved := by
  cases k <;> simp [normKind]

theorem bodyMerge_norm {a b c : ShapeKind} (h : BodyMerge a b c) : BodyMerge (normKind a) (normKind b) (normKind c) := by
  cases h with
  | same h1 h2 h3 => exact .same (fun h => h1 (normKind_unresolved.mp h)) (fun h => h2 (normKind_unresolved.mp h)) (sameDef_norm h3)
  | resolve h1 => exact .resolve fun h => h1 (normKind_unresolved.mp h)
  | keep => exact .keep

theorem shapeMerge_norm (a b c : TopLevelShape) (h : ShapeMerge a b c) : ShapeMerge (normShape a) (normShape b) (normShape c) := by
  refine ⟨h.idl, h.idr, bodyMerge_norm h.body, fun t => ?_⟩
  simp only [normShape, normTraits_get]
  exact combine_map (M := TraitMerge) (fun _ _ _ => traitMerge_norm) (h.traits t)

theorem modelMerge_norm {a b c : Model} (h : ModelMerge a b c) : ModelMerge (jsonNormal a) (jsonNormal b) (jsonNormal c) := by
  refine ⟨h.versionl, h.versionr, h.metadata, fun id => ?_⟩
  rw [jsonNormal_get, jsonNormal_get, jsonNormal_get]
  exact combine_map (M := ShapeMerge) shapeMerge_norm (h.shapes id)

theorem mergeable_norm {a b : Model} (h : Mergeable a b) : Mergeable (jsonNormal a) (jsonNormal b) := by
  refine ⟨h.version, h.metadata, fun id x y hx hy => ?_⟩
  unfold Model.shape at hx hy
  rw [jsonNormal_get] at hx hy
  have hs := h.shapes id
  unfold Model.shape at hs
  cases hp : AMap.get a.shapes id with
  | none => rw [hp] at hx; cases hx
  | some p =>
    cases hq : AMap.get b.shapes id with
    | none => rw [hq] at hy; cases hy
    | some q =>
      rw [hp] at hx; rw [hq] at hy
      cases hx; cases hy
      have hs := hs p q hp hq
      refine ⟨?_, fun t u v hu hv => ?_, fun t v hv => ?_⟩
      · rcases hs.body with h | h | h
        · exact .inl (normKind_unresolved.mpr h)
        · exact .inr (.inl (normKind_unresolved.mpr h))
        · exact .inr (.inr (sameDef_norm h))
      · simp only [normShape, normTraits_get] at hu hv
        cases h1 : AMap.get p.traits t with
        | none => rw [h1] at hu; cases hu
        | some u' =>
          cases h2 : AMap.get q.traits t with
          | none => rw [h2] at hv; cases hv
          | some v' =>
            rw [h1] at hu; rw [h2] at hv
            cases hu; cases hv
            obtain ⟨z, hz⟩ := hs.traits t u' v' h1 h2
            exact ⟨_, traitMerge_norm hz⟩
      · simp only [normShape, normTraits_get] at hv
        cases h2 : AMap.get q.traits t with
        | none => rw [h2] at hv; cases hv
        | some v' => exact hs.legal t v' h2

/-- C109: models that can be merged can still be merged when what JSON does not keep is gone from both, and it is then gone from the result, and
nothing else. -/
theorem C109_merge (a b a' b' : Model) (ha : WfModel a) (hb : WfModel b) (ha' : WfModel a') (hb' : WfModel b') (hA : SameModel (jsonNormal a) a')
    (hB : SameModel (jsonNormal b) b') (hok : (a.merge b).2 = .ok ()) :
    (a'.merge b').2 = .ok () ∧ SameModel (jsonNormal (a.merge b).1) (a'.merge b').1 := by
  have h1 := ((merge_ok_iff ha hb).mp hok)
  have h2 := (mergeable_norm h1).same hA hB
  have h3 := (merge_ok_iff ha' hb').mpr h2
  exact ⟨h3, (modelMerge_norm (merge_spec ha hb hok)).same (merge_spec ha' hb' h3) hA hB⟩

/-- C109: so files that can be put together can still be put together when each of them is converted to JSON first, and it is the same as converting what
they are put together to. -/
theorem C109_parts (m : Model) (ms ms' : List Model) (hw : ∀ x ∈ ms, WfModel x)
    (hp : List.Forall₂ (fun x x' => SameModel (jsonNormal x) x' ∧ WfModel x') ms ms') (h : MergesTo (Model.new .v10) ms m) :
    ∃ m', MergesTo (Model.new .v10) ms' m' ∧ SameModel (jsonNormal m) m' := by
  have key : ∀ a a', MergesTo a ms m → WfModel a → WfModel a' → SameModel (jsonNormal a) a' → ∃ m', MergesTo a' ms' m' ∧ SameModel (jsonNormal m) m' := by
    clear h
    induction hp with
    | nil =>
      intro a a' h _ _ hs
      cases h
      exact ⟨a', .done, hs⟩
    | cons hx _ ih =>
      intro a a' h ha ha' hs
      cases h with
      | step hm hr =>
        have hwx := hw _ List.mem_cons_self
        have hok := C109_merge a _ a' _ ha hwx ha' hx.2 hs hx.1 (by rw [hm])
        have hw1 := wf_merge ha hwx
        have hw2 := wf_merge ha' hx.2
        rw [hm] at hok hw1
        obtain ⟨m', h1, h2⟩ := ih (fun x hx => hw x (by simp [hx])) _ _ hr hw1 hw2 hok.2
        exact ⟨m', .step (Prod.ext rfl hok.1) h1, h2⟩
  exact key _ _ h (Reachable.new .v10).wf (Reachable.new .v10).wf (SameModel.refl _)

theorem exApplied_wf (v : TraitValue) (hv : ∀ x, v = some x → x.Wf) : WfModel ⟨.v10, [], [(sid %s"A", ⟨sid %s"A", [(tid %s"t", v)], .unresolved⟩)]⟩ := by
  have hg : ∀ id s, (⟨.v10, [], [(sid %s"A", ⟨sid %s"A", [(tid %s"t", v)], .unresolved⟩)]⟩ : Model).shape id = some s →
      id = sid %s"A" ∧ s = ⟨sid %s"A", [(tid %s"t", v)], .unresolved⟩ := by
    intro id s h
    unfold Model.shape at h
    simp only [AMap.get_cons, AMap.get_nil] at h
    split at h
    · rename_i he; cases h; exact ⟨he.symm, rfl⟩
    · cases h
  refine ⟨AMap.wf_nil, nofun, by simp [AMap.Wf, AMap.keys], fun id s h => ?_, fun id s h _ => ?_, fun id s h => ?_⟩
  · obtain ⟨rfl, rfl⟩ := hg id s h; rfl
  · obtain ⟨rfl, rfl⟩ := hg id s h; rfl
  · obtain ⟨rfl, rfl⟩ := hg id s h
    refine ⟨⟨by simp [AMap.Wf, AMap.keys], fun t x hx => ?_⟩, trivial⟩
    simp only [AMap.get_cons, AMap.get_nil] at hx
    split at hx
    · exact hv x (Option.some.inj hx)
    · cases hx

/-- The other way around it is not so: a trait without a value cannot be merged with one that has the empty object for its value; in JSON, they are the
same. -/
theorem C109_merge_not_conversely : ∃ a b : Model, WfModel a ∧ WfModel b ∧ (a.merge b).2 ≠ .ok () ∧ ((jsonNormal a).merge (jsonNormal b)).2 = .ok () := by
  refine ⟨⟨.v10, [], [(sid %s"A", ⟨sid %s"A", [(tid %s"t", none)], .unresolved⟩)]⟩,
    ⟨.v10, [], [(sid %s"A", ⟨sid %s"A", [(tid %s"t", some (.object []))], .unresolved⟩)]⟩, ?_, ?_, ?_, ?_⟩
  · exact exApplied_wf none nofun
  · exact exApplied_wf (some (.object [])) fun v h => by cases h; exact .object AMap.wf_nil nofun
  · intro h; cases h
  · rfl

/-- Two models that can be merged, with a trait without a value on both sides, and a list whose member has another name than `member`. -/
example : ((⟨.v10, [], [(sid %s"A", ⟨sid %s"A", [(tid %s"t", none)], .list ⟨%s"m", [], sid %s"B"⟩⟩)]⟩ : Model).merge
    ⟨.v10, [], [(sid %s"A", ⟨sid %s"A", [(tid %s"t", none)], .unresolved⟩)]⟩).2 = .ok () := rfl

end Verif
