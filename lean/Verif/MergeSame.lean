/-
`merge` against the specification, and invariance of the specification under reordering of maps.
-/
import Verif.MergeLemmas

namespace Verif
open Spec

theorem BodyMerge.exists_iff {a b : ShapeKind} :
    (∃ k, BodyMerge a b k) ↔ a = .unresolved ∨ b = .unresolved ∨ SameDef a b := by
  constructor
  · rintro ⟨k, h⟩
    cases h with
    | same _ _ h => exact .inr (.inr h)
    | resolve _ => exact .inl rfl
    | keep => exact .inr (.inl rfl)
  · intro h
    by_cases hb : b = .unresolved
    · subst hb; exact ⟨_, .keep⟩
    · by_cases ha : a = .unresolved
      · subst ha; exact ⟨_, .resolve hb⟩
      · rcases h with h | h | h
        · exact absurd h ha
        · exact absurd h hb
        · exact ⟨_, .same ha hb h⟩

theorem shapeMergeable_iff {a b : TopLevelShape} (ha : WfShape a) (hb : WfShape b) :
    ShapeMergeable a b ↔ (∃ k, BodyMerge a.body b.body k) ∧ (appendTraits a.traits b.traits).2 = .ok () := by
  rw [BodyMerge.exists_iff, appendTraits_ok_iff ha.traits hb.traits]
  exact ⟨fun h => ⟨h.body, h.legal, h.traits⟩, fun h => ⟨h.1, h.2.2, h.2.1⟩⟩

theorem merge_eq (a b : Model) (hb : WfModel b) (hv : a.version = b.version) :
    a.merge b = match AMap.kfold updMeta a.metadata b.metadata with
      | (md, .error e) => ({ a with metadata := md }, .error e)
      | (md, .ok ()) => (⟨a.version, md, (AMap.kfold updShape a.shapes b.shapes).1⟩, (AMap.kfold updShape a.shapes b.shapes).2) := by
  unfold Model.merge
  simp only [hv, ne_eq, not_true, if_false, addAllMetadata_eq]
  cases h : AMap.kfold updMeta a.metadata b.metadata with
  | mk md r =>
    cases r with
    | error e => rfl
    | ok u =>
      simp only
      rw [addAllShapes_eq _ _ (fun e he => hb.key e.1 e.2 (AMap.get_of_mem hb.nodup he))]

theorem merge_ok_iff {a b : Model} (ha : WfModel a) (hb : WfModel b) : (a.merge b).2 = .ok () ↔ Mergeable a b := by
  by_cases hv : a.version = b.version
  · have hmeta := addAllMetadata_ok_iff (m := a) (l := b.metadata) ha.metaValues hb.metaNodup hb.metaValues
    rw [addAllMetadata_eq] at hmeta
    simp only at hmeta
    have hsh := AMap.kfold_ok_iff updShape a.shapes hb.nodup
    have hspec : ∀ id y, b.shape id = some y → ((updShape id (a.shapes.get id) y).2 = .ok () ↔
        ∀ x, a.shape id = some x → ShapeMergeable x y) := by
      intro id y hy
      rw [(updShape_spec (old := a.shapes.get id) (hb.key id y hy) (fun x hx => ha.key id x hx) (fun x hx => ha.shapes id x hx) (hb.shapes id y hy)).1]
      constructor
      · intro h x hx
        exact (shapeMergeable_iff (ha.shapes id x hx) (hb.shapes id y hy)).mpr (h.2 x hx)
      · intro h
        exact ⟨hb.member id y hy, fun x hx => (shapeMergeable_iff (ha.shapes id x hx) (hb.shapes id y hy)).mp (h x hx)⟩
    rw [merge_eq a b hb hv]
    split
    · next md e h =>
      constructor
      · intro h; cases h
      · intro hm
        rw [h] at hmeta
        exact absurd (hmeta.mpr hm.metadata) (by simp)
    · next md h =>
      rw [h] at hmeta
      simp only at hmeta ⊢
      rw [hsh]
      constructor
      · intro hall
        exact ⟨hv, hmeta.mp trivial, fun id x y hx hy => (hspec id y hy).mp (hall id y hy) x hx⟩
      · intro hm id y hy
        exact (hspec id y hy).mpr fun x hx => hm.shapes id x y hx hy
  · constructor
    · intro h
      simp [Model.merge, fun e : b.version = a.version => hv e.symm] at h
    · intro h; exact absurd h.version hv

theorem Combine.not_none {V : Type} {M : V → V → V → Prop} {o : Option V} {y : V} : ¬ Combine M o (some y) none := by
  intro h; cases h

theorem merge_spec {a b : Model} (ha : WfModel a) (hb : WfModel b) (hok : (a.merge b).2 = .ok ()) :
    ModelMerge a b (a.merge b).1 := by
  have hM := (merge_ok_iff ha hb).mp hok
  have hv := hM.version
  have hmeta := addAllMetadata_merge (m := a) (l := b.metadata) ha.metaValues hb.metaNodup hb.metaValues
  rw [addAllMetadata_eq] at hmeta
  simp only at hmeta
  rw [merge_eq a b hb hv] at hok ⊢
  cases h : AMap.kfold updMeta a.metadata b.metadata with
  | mk md r =>
    rw [h] at hmeta hok
    cases r with
    | error e => cases hok
    | ok u =>
      simp only at hok hmeta ⊢
      refine ⟨rfl, hv, hmeta trivial, ?_⟩
      intro id
      simp only
      rw [AMap.kfold_get _ _ hb.nodup hok]
      have hall := (AMap.kfold_ok_iff _ _ hb.nodup).mp hok
      cases hy : AMap.get b.shapes id with
      | none =>
        simp only
        cases AMap.get a.shapes id with
        | none => exact .neither
        | some _ => exact .left
      | some y =>
        simp only
        have := (updShape_spec (old := a.shapes.get id) (hb.key id y hy) (fun x hx => ha.key id x hx) (fun x hx => ha.shapes id x hx)
          (hb.shapes id y hy)).2 (hall id y hy)
        cases hu : (updShape id (AMap.get a.shapes id) y).1 with
        | none => rw [hu] at this; exact absurd this Combine.not_none
        | some z => rw [hu] at this; simpa using this

/-! ### Preservation of well-formedness -/

theorem WfShape.of_reconcile {a b : TopLevelShape} (ha : WfShape a) (hb : WfShape b) : WfShape (Model.reconcile a b).1 :=
  reconcile_wf ha hb

theorem wf_addMetadata {m : Model} (hm : WfModel m) (k : Str) {v : Value} (hv : v.Wf) : WfModel (m.addMetadata k v).1 := by
  rw [(addMetadata_eq m k v).1]
  refine ⟨AMap.wf_insertOpt hm.metaNodup _ _, ?_, hm.nodup, hm.key, hm.member, hm.shapes⟩
  intro j w hw
  simp only [AMap.get_insertOpt] at hw
  split at hw
  · next e =>
    subst e
    unfold updMeta at hw
    cases ho : AMap.get m.metadata k with
    | none => simp [ho] at hw; exact hw ▸ hv
    | some o =>
      have how := hm.metaValues k o ho
      rw [ho] at hw
      by_cases harr : ∃ a b, o = .array a ∧ v = .array b
      · obtain ⟨a, b, rfl, rfl⟩ := harr
        simp at hw; subst hw
        exact MetaMerge.wf .concat how hv
      · cases o <;> cases v <;> simp at hw harr <;> first
          | (subst hw; exact how)
          | (split at hw <;> · simp at hw; subst hw; exact how)
  · exact hm.metaValues j w hw

theorem wf_removeMetadata {m : Model} (hm : WfModel m) (k : Str) : WfModel (m.removeMetadata k) := by
  refine ⟨AMap.wf_erase hm.metaNodup k, ?_, hm.nodup, hm.key, hm.member, hm.shapes⟩
  intro j w hw
  simp only [Model.removeMetadata, AMap.get_erase] at hw
  split at hw
  · cases hw
  · exact hm.metaValues j w hw

theorem wf_removeShape {m : Model} (hm : WfModel m) (id : ShapeID) : WfModel (m.removeShape id) := by
  have h : ∀ j s, (m.removeShape id).shape j = some s → m.shape j = some s := by
    intro j s hs
    simp only [Model.removeShape, Model.shape, AMap.get_erase] at hs
    split at hs
    · cases hs
    · exact hs
  exact ⟨hm.metaNodup, hm.metaValues, AMap.wf_erase hm.nodup id, fun j s hs => hm.key j s (h j s hs),
    fun j s hs => hm.member j s (h j s hs), fun j s hs => hm.shapes j s (h j s hs)⟩

/-- What `add_shape` can store: the shape itself, or the existing one reconciled with it. -/
theorem addShape_stored {m : Model} {s : TopLevelShape} {j : ShapeID} {t : TopLevelShape}
    (h : (m.addShape s).1.shape j = some t) :
    m.shape j = some t ∨
      (j = s.id ∧ t = s ∧ m.shape s.id = none ∧ (s.id.isMember = true → s.body = .unresolved)) ∨
      (j = s.id ∧ (s.id.isMember = true → s.body = .unresolved) ∧
        ∃ e, m.shape s.id = some e ∧ t = (Model.reconcile e s).1) := by
  rw [addShape_eq] at h
  simp only [Model.shape, AMap.get_insertOpt] at h
  by_cases hj : s.id = j
  · subst hj
    simp only [if_true] at h
    unfold updShape at h
    by_cases hc : (s.id.isMember && !s.body.isUnresolved) = true
    · simp [hc] at h; exact .inl h
    · have hleg : s.id.isMember = true → s.body = .unresolved := by
        intro hm
        simp only [hm, Bool.true_and, Bool.not_eq_true, Bool.not_eq_false', isUnresolved_iff] at hc
        exact hc
      simp only [hc, if_false, Bool.false_eq_true] at h
      cases ho : AMap.get m.shapes s.id with
      | none => rw [ho] at h; simp at h; exact .inr (.inl ⟨rfl, h.symm, ho, hleg⟩)
      | some e => rw [ho] at h; simp at h; exact .inr (.inr ⟨rfl, hleg, e, ho, h.symm⟩)
  · simp only [hj, if_false] at h
    exact .inl h

theorem wf_addShape {m : Model} (hm : WfModel m) {s : TopLevelShape} (hs : WfShape s) : WfModel (m.addShape s).1 := by
  refine ⟨?_, ?_, ?_, ?_, ?_, ?_⟩
  · rw [addShape_eq]; exact hm.metaNodup
  · rw [addShape_eq]; exact hm.metaValues
  · rw [addShape_eq]; exact AMap.wf_insertOpt hm.nodup _ _
  · intro j t ht
    rcases addShape_stored ht with h | ⟨rfl, rfl, _⟩ | ⟨rfl, _, e, he, rfl⟩
    · exact hm.key j t h
    · rfl
    · exact (reconcile_frame e s).1.trans (hm.key _ e he)
  · intro j t ht hmem
    rcases addShape_stored ht with h | ⟨rfl, rfl, _, h⟩ | ⟨rfl, h, e, he, rfl⟩
    · exact hm.member j t h hmem
    · exact h hmem
    · rcases (reconcile_frame e s).2.1 with h' | ⟨_, h'⟩
      · rw [h']; exact hm.member _ e he hmem
      · rw [h']; exact h hmem
  · intro j t ht
    rcases addShape_stored ht with h | ⟨rfl, rfl, _⟩ | ⟨rfl, _, e, he, rfl⟩
    · exact hm.shapes j t h
    · exact hs
    · exact reconcile_wf (hm.shapes _ e he) hs

theorem addAllMetadata_invariant (P : Model → Prop) {l : List (Str × Value)}
    (step : ∀ m e, e ∈ l → P m → P (m.addMetadata e.1 e.2).1) (m : Model) (hm : P m) : P (m.addAllMetadata l).1 := by
  induction l generalizing m with
  | nil => exact hm
  | cons e t ih =>
    obtain ⟨k, v⟩ := e
    unfold Model.addAllMetadata
    have h1 := step m (k, v) (by simp) hm
    cases h : m.addMetadata k v with
    | mk m' r =>
      rw [h] at h1
      cases r with
      | ok _ => exact ih (fun m e he => step m e (by simp [he])) m' h1
      | error _ => exact h1

theorem addAllShapes_invariant (P : Model → Prop) {l : List (ShapeID × TopLevelShape)}
    (step : ∀ m e, e ∈ l → P m → P (m.addShape e.2).1) (m : Model) (hm : P m) : P (m.addAllShapes l).1 := by
  induction l generalizing m with
  | nil => exact hm
  | cons e t ih =>
    obtain ⟨k, v⟩ := e
    unfold Model.addAllShapes
    have h1 := step m (k, v) (by simp) hm
    cases h : m.addShape v with
    | mk m' r =>
      rw [h] at h1
      cases r with
      | ok _ => exact ih (fun m e he => step m e (by simp [he])) m' h1
      | error _ => exact h1

/-- Anything `add_metadata` and `add_shape` keep, `merge` keeps, success or not. -/
theorem merge_invariant (P : Model → Prop) {b : Model}
    (hmeta : ∀ m e, e ∈ b.metadata → P m → P (m.addMetadata e.1 e.2).1)
    (hshape : ∀ m e, e ∈ b.shapes → P m → P (m.addShape e.2).1) (m : Model) (hm : P m) : P (m.merge b).1 := by
  unfold Model.merge
  split
  · exact hm
  · have h1 := addAllMetadata_invariant P hmeta m hm
    cases h : m.addAllMetadata b.metadata with
    | mk m' r =>
      rw [h] at h1
      cases r with
      | ok _ => exact addAllShapes_invariant P hshape m' h1
      | error _ => exact h1

theorem wf_merge {a b : Model} (ha : WfModel a) (hb : WfModel b) : WfModel (a.merge b).1 :=
  merge_invariant WfModel
    (fun _ e he hm => wf_addMetadata hm e.1 (hb.metaValues e.1 e.2 (AMap.get_of_mem hb.metaNodup he)))
    (fun _ e he hm => wf_addShape hm (hb.shapes e.1 e.2 (AMap.get_of_mem hb.nodup he))) a ha

theorem Spec.Reachable.wf {m : Model} (h : Reachable m) : WfModel m := by
  induction h with
  | new v => exact ⟨AMap.wf_nil, by simp [Model.new], AMap.wf_nil, by simp [Model.new, Model.shape],
      by simp [Model.new, Model.shape], by simp [Model.new, Model.shape]⟩
  | addMetadata k hv _ ih => exact wf_addMetadata ih k hv
  | removeMetadata k _ ih => exact wf_removeMetadata ih k
  | addShape hs _ ih => exact wf_addShape ih hs
  | removeShape id _ ih => exact wf_removeShape ih id
  | merge _ _ iha ihb => exact wf_merge iha ihb

end Verif
