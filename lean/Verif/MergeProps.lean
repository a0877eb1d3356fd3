/-
Property theorems C15-C22 (`Model::merge`, atelier-core/src/model/mod.rs:91-110, and histories of model operations).
-/
import Verif.MergeOrder
import Verif.ModelProps
import Verif.ValuesProps

namespace Verif
open Spec

/-! ### C15 A successful merge keeps everything and invents nothing -/

/-- C15: `merge` succeeds exactly when the two models can be combined by the Smithy rules. -/
theorem C15_merge_ok_iff (a b : Model) (ha : WfModel a) (hb : WfModel b) :
    (a.merge b).2 = .ok () ↔ Mergeable a b := merge_ok_iff ha hb

/-- C15: and then the result is their combination. -/
theorem C15_merge_result (a b : Model) (ha : WfModel a) (hb : WfModel b) (hok : (a.merge b).2 = .ok ()) :
    ModelMerge a b (a.merge b).1 := merge_spec ha hb hok

theorem Combine.isSome_iff {V : Type} {M : V → V → V → Prop} {a b c : Option V} (h : Combine M a b c) :
    c.isSome = true ↔ a.isSome = true ∨ b.isSome = true := by cases h <;> simp

/-- C15 in words: keys are the unions; each metadata value is `a`'s, `b`'s or the concatenation; each shape defined in
`a` keeps its body, each shape only defined in `b` has `b`'s; the version is unchanged. -/
theorem C15_merge_keeps_everything (a b : Model) (ha : WfModel a) (hb : WfModel b) (hok : (a.merge b).2 = .ok ()) :
    (a.merge b).1.version = a.version ∧
    (∀ k, k ∈ (a.merge b).1.metadata.keys ↔ k ∈ a.metadata.keys ∨ k ∈ b.metadata.keys) ∧
    (∀ id, id ∈ (a.merge b).1.shapes.keys ↔ id ∈ a.shapes.keys ∨ id ∈ b.shapes.keys) ∧
    (∀ k v, (a.merge b).1.metadataValue k = some v → a.metadataValue k = some v ∨ b.metadataValue k = some v ∨
      ∃ x y, a.metadataValue k = some (.array x) ∧ b.metadataValue k = some (.array y) ∧ v = .array (x ++ y)) ∧
    (∀ id s, a.shape id = some s → s.body ≠ .unresolved →
      ∃ t, (a.merge b).1.shape id = some t ∧ t.body = s.body) ∧
    (∀ id s, b.shape id = some s → s.body ≠ .unresolved → (∀ x, a.shape id = some x → x.body = .unresolved) →
      ∃ t, (a.merge b).1.shape id = some t ∧ t.body = s.body) := by
  have h := merge_spec ha hb hok
  refine ⟨h.versionl, ?_, ?_, ?_, ?_, ?_⟩
  · intro k
    simp only [AMap.mem_keys_iff]
    exact Combine.isSome_iff (h.metadata k)
  · intro k
    simp only [AMap.mem_keys_iff]
    exact Combine.isSome_iff (h.shapes k)
  · intro k v hv
    have hk := h.metadata k
    simp only [Model.metadataValue] at hv ⊢
    generalize AMap.get a.metadata k = A at *
    generalize AMap.get b.metadata k = B at *
    generalize AMap.get (a.merge b).1.metadata k = C at *
    cases hk with
    | neither => cases hv
    | left => exact .inl hv
    | right => exact .inr (.inl hv)
    | both hm =>
      cases hm with
      | concat => injection hv with hv; exact .inr (.inr ⟨_, _, rfl, rfl, hv.symm⟩)
      | equal => exact .inl hv
  · intro id s hs hd
    have hk := h.shapes id
    simp only [Model.shape] at hs ⊢
    rw [hs] at hk
    generalize AMap.get b.shapes id = B at *
    generalize AMap.get (a.merge b).1.shapes id = C at *
    cases hk with
    | left => exact ⟨_, rfl, rfl⟩
    | both hm =>
      refine ⟨_, rfl, ?_⟩
      have := hm.body
      generalize s.body = X at *
      generalize TopLevelShape.body _ = Y at *
      generalize TopLevelShape.body _ = Z at *
      cases this with
      | same => rfl
      | resolve => exact absurd rfl hd
      | keep => rfl
  · intro id s hs hd hno
    have hk := h.shapes id
    simp only [Model.shape] at hs hno ⊢
    rw [hs] at hk
    generalize AMap.get a.shapes id = A at *
    generalize AMap.get (a.merge b).1.shapes id = C at *
    cases hk with
    | right => exact ⟨_, rfl, rfl⟩
    | both hm =>
      refine ⟨_, rfl, ?_⟩
      have := hm.body
      have h0 := hno _ rfl
      generalize s.body = X at *
      generalize TopLevelShape.body _ = Y at *
      generalize TopLevelShape.body _ = Z at *
      subst h0
      cases this with
      | same h => exact absurd rfl h
      | resolve => rfl
      | keep => exact absurd rfl hd

/-- The traits of each shape are combined too: none is lost, none invented. -/
theorem C15_merge_traits (a b : Model) (ha : WfModel a) (hb : WfModel b) (hok : (a.merge b).2 = .ok ())
    (id : ShapeID) (x y z : TopLevelShape) (hx : a.shape id = some x) (hy : b.shape id = some y)
    (hz : (a.merge b).1.shape id = some z) (t : ShapeID) :
    (hasTrait z.traits t = true ↔ hasTrait x.traits t = true ∨ hasTrait y.traits t = true) ∧
    (∀ v, z.traits.get t = some v → x.traits.get t = some v ∨ y.traits.get t = some v ∨
      ∃ p q, x.traits.get t = some (some (.array p)) ∧ y.traits.get t = some (some (.array q)) ∧
        v = some (.array (p ++ q))) := by
  have h := (merge_spec ha hb hok).shapes id
  simp only [Model.shape] at hx hy hz
  rw [hx, hy, hz] at h
  cases h with | both h =>
  have ht := h.traits t
  refine ⟨by simpa [hasTrait, AMap.contains] using Combine.isSome_iff ht, ?_⟩
  intro v hv
  generalize AMap.get x.traits t = A at *
  generalize AMap.get y.traits t = B at *
  generalize AMap.get z.traits t = C at *
  cases ht with
  | neither => cases hv
  | left => exact .inl hv
  | right => exact .inr (.inl hv)
  | both hm =>
    cases hm with
    | concat => injection hv with hv; exact .inr (.inr ⟨_, _, rfl, rfl, hv.symm⟩)
    | valueless => exact .inl hv
    | equal => exact .inl hv

/-! ### C16 The empty model is neutral -/

theorem kfold_fresh {K V : Type} [DecidableEq K] (upd : K → Option V → V → Option V × Except Err Unit) (s l : AMap K V)
    (h : AMap.Wf (s ++ l)) (hu : ∀ e ∈ l, upd e.1 none e.2 = (some e.2, .ok ())) : AMap.kfold upd s l = (s ++ l, .ok ()) := by
  induction l generalizing s with
  | nil => simp [AMap.kfold]
  | cons e t ih =>
    obtain ⟨k, n⟩ := e
    have hk : k ∉ AMap.keys s := by
      simp only [AMap.Wf, AMap.keys, List.map_append, List.map_cons, List.nodup_append] at h
      intro hk
      exact h.2.2 k hk k (by simp) rfl
    have hg := (AMap.not_mem_keys_iff s k).mp hk
    unfold AMap.kfold
    rw [hg, hu (k, n) (by simp)]
    simp only [AMap.insertOpt]
    rw [AMap.insert_of_not_mem _ hk, ih]
    · simp
    · simpa using h
    · intro e he; exact hu e (by simp [he])

/-- C16: the empty model of the same version is neutral on both sides. -/
theorem C16_merge_empty (m : Model) (hm : WfModel m) :
    m.merge (Model.new m.version) = (m, .ok ()) ∧ (Model.new m.version).merge m = (m, .ok ()) := by
  constructor
  · simp [Model.merge, Model.new, Model.addAllMetadata, Model.addAllShapes]
  · rw [merge_eq (Model.new m.version) m hm rfl]
    simp only [Model.new]
    rw [kfold_fresh updMeta [] m.metadata (by simpa using hm.metaNodup) (by simp [updMeta])]
    rw [kfold_fresh updShape [] m.shapes (by simpa using hm.nodup)]
    · simp
    · rintro ⟨id, s⟩ he
      have hg := AMap.get_of_mem hm.nodup he
      have hid := hm.key id s hg
      unfold updShape
      have : (s.id.isMember && !s.body.isUnresolved) = false := by
        cases hmem : s.id.isMember with
        | false => rfl
        | true =>
          rw [hid] at hmem
          simp [isUnresolved_iff.mpr (hm.member id s hg hmem)]
      simp [this]

/-! ### C17 Merge does not depend on hash iteration order -/

/-- C17: reordering the entries of any map in either model (metadata, shapes, traits, members, nested objects) changes
neither whether `merge` succeeds nor, up to such a reordering, its result. -/
theorem C17_merge_order_independent (a a' b b' : Model) (ha : WfModel a) (ha' : WfModel a') (hb : WfModel b)
    (hb' : WfModel b') (hA : SameModel a a') (hB : SameModel b b') :
    ((a.merge b).2 = .ok () ↔ (a'.merge b').2 = .ok ()) ∧
    ((a.merge b).2 = .ok () → SameModel (a.merge b).1 (a'.merge b').1) := by
  have hiff : (a.merge b).2 = .ok () ↔ (a'.merge b').2 = .ok () := by
    rw [merge_ok_iff ha hb, merge_ok_iff ha' hb']
    exact ⟨fun h => h.same hA hB, fun h => h.same hA.symm hB.symm⟩
  exact ⟨hiff, fun hok => (merge_spec ha hb hok).same (merge_spec ha' hb' (hiff.mp hok)) hA hB⟩

/-- Enumerating the metadata and the shapes in another order gives the same model. -/
theorem C17_perm_same (v : Version) (md md' : AMap Str Value) (ss ss' : AMap ShapeID TopLevelShape) (h : WfModel ⟨v, md, ss⟩)
    (hmd : md.Perm md') (hss : ss.Perm ss') : SameModel ⟨v, md, ss⟩ ⟨v, md', ss'⟩ ∧ WfModel ⟨v, md', ss'⟩ := by
  refine ⟨⟨rfl, MapRel.mono ?_ (MapRel.of_perm h.metaNodup hmd), MapRel.mono ?_ (MapRel.of_perm h.nodup hss)⟩, ?_⟩
  · rintro x _ rfl; exact Same.refl x
  · rintro x _ rfl; exact SameShape.refl x
  · have e1 := fun k => AMap.get_perm hmd h.metaNodup k
    have e2 := fun k => AMap.get_perm hss h.nodup k
    exact ⟨AMap.wf_perm hmd h.metaNodup, fun k v hv => h.metaValues k v ((e1 k).trans hv), AMap.wf_perm hss h.nodup,
      fun k v hv => h.key k v ((e2 k).trans hv), fun k v hv => h.member k v ((e2 k).trans hv),
      fun k v hv => h.shapes k v ((e2 k).trans hv)⟩

/-- Iterating over the same maps in any other order: the direct form of C17. -/
theorem C17_merge_any_enumeration (a : Model) (v : Version) (md md' : AMap Str Value) (ss ss' : AMap ShapeID TopLevelShape)
    (ha : WfModel a) (hb : WfModel ⟨v, md, ss⟩) (hmd : md.Perm md') (hss : ss.Perm ss') :
    ((a.merge ⟨v, md, ss⟩).2 = .ok () ↔ (a.merge ⟨v, md', ss'⟩).2 = .ok ()) ∧
    ((a.merge ⟨v, md, ss⟩).2 = .ok () → SameModel (a.merge ⟨v, md, ss⟩).1 (a.merge ⟨v, md', ss'⟩).1) := by
  obtain ⟨hs, hw⟩ := C17_perm_same v md md' ss ss' hb hmd hss
  exact C17_merge_order_independent a a _ _ ha ha hb hw (SameModel.refl a) hs

/-! ### C18 Failed merges -/

def exLeft : Model := ⟨.v10, [], [(sid (%s"S"), exStruct (%s"S") [(%s"a", sid (%s"T"))])]⟩
def exRight : Model := ⟨.v10, [(%s"k", .boolean true)], [(sid (%s"S"), ⟨sid (%s"S"), [], .simple .string⟩)]⟩

/-- C18 is violated: the merge fails with a shape conflict, yet the metadata of the other model has been added. -/
theorem C18_failed_merge_changes_model :
    (exLeft.merge exRight).2 = .error (.mergeShapeConflict (sid (%s"S"))) ∧
    exLeft.metadataValue (%s"k") = none ∧ (exLeft.merge exRight).1.metadataValue (%s"k") = some (.boolean true) :=
  ⟨rfl, rfl, rfl⟩

/-- C18, the part that holds: whatever the outcome of `merge`, the version, all metadata and shapes that `b` does not
mention, and the body of every shape `a` defines are unchanged; nothing of `a` disappears, and everything new comes from
`b`. -/
theorem C18_merge_frame (a b : Model) (ha : WfModel a) (hb : WfModel b) :
    (a.merge b).1.version = a.version ∧
    (∀ k, b.metadataValue k = none → (a.merge b).1.metadataValue k = a.metadataValue k) ∧
    (∀ id, b.shape id = none → (a.merge b).1.shape id = a.shape id) ∧
    (∀ id s, a.shape id = some s → s.body ≠ .unresolved → ∃ t, (a.merge b).1.shape id = some t ∧ t.id = s.id ∧ t.body = s.body) ∧
    (∀ k, (a.metadataValue k).isSome = true → ((a.merge b).1.metadataValue k).isSome = true) ∧
    (∀ id, (a.shape id).isSome = true → ((a.merge b).1.shape id).isSome = true) := by
  refine ⟨?_, ?_, ?_, ?_, ?_, ?_⟩
  · refine merge_invariant (fun m => m.version = a.version) ?_ ?_ a rfl
    · intro m e _ hm; rw [(addMetadata_eq m e.1 e.2).1]
    · intro m e _ hm; rw [addShape_eq]
  · intro k hk
    refine merge_invariant (fun m => m.metadataValue k = a.metadataValue k) ?_ ?_ a rfl
    · intro m e he hm
      rw [(addMetadata_eq m e.1 e.2).1]
      have hne : e.1 ≠ k := by
        rintro rfl
        have := AMap.get_of_mem hb.metaNodup (k := e.1) (v := e.2) he
        simp only [Model.metadataValue] at hk; rw [hk] at this; cases this
      rw [← hm]; exact AMap.get_insertOpt_ne _ _ hne
    · intro m e _ hm; rw [addShape_eq]; exact hm
  · intro id hid
    refine merge_invariant (fun m => m.shape id = a.shape id) ?_ ?_ a rfl
    · intro m e _ hm; rw [(addMetadata_eq m e.1 e.2).1]; exact hm
    · intro m e he hm
      have hg := AMap.get_of_mem hb.nodup (k := e.1) (v := e.2) he
      have hk := hb.key e.1 e.2 hg
      have hne : e.2.id ≠ id := by
        rintro rfl
        simp only [Model.shape] at hid
        rw [hk, hg] at hid; cases hid
      rw [addShape_eq, ← hm]; exact AMap.get_insertOpt_ne _ _ hne
  · intro id s hs hd
    refine merge_invariant (fun m => ∃ t, m.shape id = some t ∧ t.id = s.id ∧ t.body = s.body) ?_ ?_ a ⟨s, hs, rfl, rfl⟩
    · intro m e _ hm; rw [(addMetadata_eq m e.1 e.2).1]; exact hm
    · rintro m e _ ⟨t, ht, hti, htb⟩
      rw [addShape_eq]
      simp only [Model.shape, AMap.get_insertOpt] at ht ⊢
      split
      · next heq =>
        rw [heq, ht]
        unfold updShape
        split
        · exact ⟨t, rfl, hti, htb⟩
        · obtain ⟨h1, h2, _⟩ := reconcile_frame t e.2
          refine ⟨_, rfl, h1.trans hti, ?_⟩
          rcases h2 with h2 | ⟨h2, _⟩
          · exact h2.trans htb
          · exact absurd (htb.symm.trans h2) hd
      · exact ⟨t, ht, hti, htb⟩
  · intro k hk
    refine merge_invariant (fun m => (m.metadataValue k).isSome = true) ?_ ?_ a hk
    · intro m e _ hm
      rw [(addMetadata_eq m e.1 e.2).1]
      simp only [Model.metadataValue, AMap.get_insertOpt] at hm ⊢
      split
      · cases (updMeta e.1 (AMap.get m.metadata e.1) e.2).1 <;> simp [hm]
      · exact hm
    · intro m e _ hm; rw [addShape_eq]; exact hm
  · intro id hid
    refine merge_invariant (fun m => (m.shape id).isSome = true) ?_ ?_ a hid
    · intro m e _ hm; rw [(addMetadata_eq m e.1 e.2).1]; exact hm
    · intro m e _ hm
      rw [addShape_eq]
      simp only [Model.shape, AMap.get_insertOpt] at hm ⊢
      split
      · cases (updShape e.2.id (AMap.get m.shapes e.2.id) e.2).1 <;> simp [hm]
      · exact hm

/-- C18 for one metadata entry: a failed `add_metadata` changes nothing. -/
theorem C18_addMetadata_atomic (m : Model) (k : Str) (v : Value) (e : Err)
    (h : (m.addMetadata k v).2 = .error e) : (m.addMetadata k v).1 = m := by
  unfold Model.addMetadata at h ⊢
  split at h
  · next old ho =>
    cases old <;> cases v <;> simp at h ⊢ <;> split at h <;> simp_all
  · simp at h

/-! ### C19 Merge order of models -/

theorem Spec.MetaMerge.comm {x y z : Value} (h : MetaMerge x y z) : ∃ z', MetaMerge y x z' := by
  cases h with
  | concat => exact ⟨_, .concat⟩
  | equal hn he => exact ⟨_, .equal (fun h => hn ⟨h.2, h.1⟩) (VEq.symm he)⟩

theorem Spec.TraitMerge.comm {x y z : TraitValue} (h : TraitMerge x y z) : ∃ z', TraitMerge y x z' := by
  cases h with
  | concat => exact ⟨_, .concat⟩
  | valueless => exact ⟨_, .valueless⟩
  | equal hn he => exact ⟨_, .equal (fun h => hn ⟨h.2, h.1⟩) (VEq.symm he)⟩

theorem BodyMerge.comm {a b c d : ShapeKind} (h : BodyMerge a b c) (h' : BodyMerge b a d) : SameDef c d := by
  cases h with
  | same h1 h2 h3 =>
    cases h' with
    | same => exact h3
    | resolve => exact absurd rfl h2
    | keep => exact absurd rfl h1
  | resolve h1 =>
    cases h' with
    | same _ h => exact absurd rfl h
    | resolve h => exact absurd rfl h
    | keep => exact SameDef.refl _
  | keep =>
    cases h' with
    | same h => exact absurd rfl h
    | resolve => exact SameDef.refl _
    | keep => exact SameDef.refl _

/-- C19: success does not depend on which model is merged into which (all traits being applied under shape ids). -/
theorem C19_merge_success_symmetric (a b : Model) (ha : WfModel a) (hb : WfModel b) (la : LegalModel a)
    (hok : (a.merge b).2 = .ok ()) : (b.merge a).2 = .ok () := by
  rw [merge_ok_iff hb ha]
  have h := (merge_ok_iff ha hb).mp hok
  refine ⟨h.version.symm, ?_, ?_⟩
  · intro k x y hx hy
    obtain ⟨z, hz⟩ := h.metadata k y x hy hx
    exact hz.comm
  · intro id x y hx hy
    have hs := h.shapes id y x hy hx
    refine ⟨?_, ?_, la id y hy⟩
    · rcases hs.body with h | h | h
      · exact .inr (.inl h)
      · exact .inl h
      · exact .inr (.inr h.symm)
    · intro t p q hp hq
      obtain ⟨z, hz⟩ := hs.traits t q p hq hp
      exact hz.comm

/-- C19: both orders define the same shape ids, with the same definitions, the same traits and the same metadata keys;
values differ at most in the order of concatenated arrays. -/
theorem C19_merge_results_agree (a b : Model) (ha : WfModel a) (hb : WfModel b)
    (h1 : (a.merge b).2 = .ok ()) (h2 : (b.merge a).2 = .ok ()) :
    (∀ k, OptRel (fun x y => VEq x y ∨ x = y ∨
        ∃ p q, x = .array (p ++ q) ∧ y = .array (q ++ p))
      ((a.merge b).1.metadataValue k) ((b.merge a).1.metadataValue k)) ∧
    (∀ id, OptRel (fun x y => x.id = y.id ∧ SameDef x.body y.body ∧
        ∀ t, OptRel (fun u v => OptRel VEq u v ∨ u = v ∨ ∃ p q, u = some (.array (p ++ q)) ∧ v = some (.array (q ++ p)))
          (x.traits.get t) (y.traits.get t))
      ((a.merge b).1.shape id) ((b.merge a).1.shape id)) := by
  have m1 := merge_spec ha hb h1
  have m2 := merge_spec hb ha h2
  constructor
  · intro k
    have c1 := m1.metadata k; have c2 := m2.metadata k
    simp only [Model.metadataValue]
    generalize AMap.get a.metadata k = A at *
    generalize AMap.get b.metadata k = B at *
    generalize AMap.get (a.merge b).1.metadata k = C at *
    generalize AMap.get (b.merge a).1.metadata k = D at *
    cases c1 with
    | neither => cases c2; exact .none
    | left => cases c2; exact .some (.inr (.inl rfl))
    | right => cases c2; exact .some (.inr (.inl rfl))
    | both hm =>
      cases c2 with | both hm' =>
      refine .some ?_
      cases hm with
      | concat =>
        cases hm' with
        | concat => exact .inr (.inr ⟨_, _, rfl, rfl⟩)
        | equal hn => exact absurd ⟨rfl, rfl⟩ hn
      | equal hn he =>
        cases hm' with
        | concat => exact absurd ⟨rfl, rfl⟩ hn
        | equal => exact .inl he
  · intro id
    have c1 := m1.shapes id; have c2 := m2.shapes id
    simp only [Model.shape]
    generalize AMap.get a.shapes id = A at *
    generalize AMap.get b.shapes id = B at *
    generalize AMap.get (a.merge b).1.shapes id = C at *
    generalize AMap.get (b.merge a).1.shapes id = D at *
    have hrefl : ∀ (s : TopLevelShape) t, OptRel (fun u v : TraitValue => OptRel VEq u v ∨ u = v ∨
        ∃ p q, u = some (.array (p ++ q)) ∧ v = some (.array (q ++ p))) (s.traits.get t) (s.traits.get t) :=
      fun s t => OptRel.refl (fun _ => .inr (.inl rfl)) _
    cases c1 with
    | neither => cases c2; exact .none
    | left => cases c2; exact .some ⟨rfl, SameDef.refl _, hrefl _⟩
    | right => cases c2; exact .some ⟨rfl, SameDef.refl _, hrefl _⟩
    | both hm =>
      cases c2 with | both hm' =>
      refine .some ⟨hm.idl.trans hm'.idr.symm, BodyMerge.comm hm.body hm'.body, ?_⟩
      intro t
      have t1 := hm.traits t; have t2 := hm'.traits t
      rename_i x y z w
      generalize AMap.get x.traits t = A at *
      generalize AMap.get y.traits t = B at *
      generalize AMap.get z.traits t = C at *
      generalize AMap.get w.traits t = D at *
      cases t1 with
      | neither => cases t2; exact .none
      | left => cases t2; exact .some (.inr (.inl rfl))
      | right => cases t2; exact .some (.inr (.inl rfl))
      | both hm =>
        cases t2 with | both hm' =>
        refine .some ?_
        cases hm with
        | concat =>
          cases hm' with
          | concat => exact .inr (.inr ⟨_, _, rfl, rfl⟩)
          | equal hn => exact absurd ⟨rfl, rfl⟩ hn
        | valueless => cases hm'; exact .inr (.inl rfl)
        | equal hn he =>
          cases hm' with
          | concat => exact absurd ⟨rfl, rfl⟩ hn
          | equal => exact .inl (.some he)

/-! ### C20 Merging a model into itself -/

/-- A value that conflicts with itself: not an array, and containing a NaN. -/
def SelfConflict (v : Value) : Prop := v.isArray = false ∧ HasNaN v

theorem MetaMerge.self_iff (v : Value) (hv : v.Wf) : (∃ z, MetaMerge v v z) ↔ ¬ SelfConflict v := by
  constructor
  · rintro ⟨z, h⟩ ⟨h1, h2⟩
    cases h with
    | concat => cases h1
    | equal _ he => exact (VEq.refl_iff v hv).mp he h2
  · intro h
    by_cases ha : v.isArray = true
    · cases v <;> simp [Value.isArray] at ha
      exact ⟨_, .concat⟩
    · exact ⟨v, .equal (fun h' => ha h'.1) ((VEq.refl_iff v hv).mpr fun hn => h ⟨by simpa using ha, hn⟩)⟩

theorem TraitMerge.self_iff (v : TraitValue) (hv : ∀ x, v = some x → x.Wf) :
    (∃ z, TraitMerge v v z) ↔ ∀ x, v = some x → ¬ SelfConflict x := by
  cases v with
  | none => exact ⟨fun _ x hx => (by cases hx), fun _ => ⟨_, .valueless⟩⟩
  | some v =>
    rw [show (∀ x, some v = some x → ¬ SelfConflict x) ↔ ¬ SelfConflict v by simp, ← MetaMerge.self_iff v (hv v rfl)]
    constructor
    · rintro ⟨z, h⟩
      cases h with
      | concat => exact ⟨_, .concat⟩
      | equal hn he => exact ⟨_, .equal hn he⟩
    · rintro ⟨z, h⟩
      cases h with
      | concat => exact ⟨_, .concat⟩
      | equal hn he => exact ⟨_, .equal hn he⟩

/-- C20: exactly when merging a model into itself succeeds. -/
theorem C20_self_merge_ok_iff (m : Model) (hm : WfModel m) : (m.merge m).2 = .ok () ↔
    (∀ k v, m.metadataValue k = some v → ¬ SelfConflict v) ∧
    (∀ id s t v, m.shape id = some s → s.traits.get t = some (some v) → ¬ SelfConflict v) ∧ LegalModel m := by
  rw [merge_ok_iff hm hm]
  constructor
  · intro h
    refine ⟨fun k v hv => (MetaMerge.self_iff v (hm.metaValues k v hv)).mp (h.metadata k v v hv hv), ?_,
      fun id s hs => (h.shapes id s s hs hs).legal⟩
    intro id s t v hs hv
    exact (TraitMerge.self_iff (some v) (fun x hx => by cases hx; exact (hm.shapes id s hs).traits.values t v hv)).mp
      ((h.shapes id s s hs hs).traits t _ _ hv hv) v rfl
  · rintro ⟨h1, h2, h3⟩
    refine ⟨rfl, ?_, ?_⟩
    · intro k x y hx hy
      rw [hx] at hy; injection hy with hy; subst hy
      exact (MetaMerge.self_iff x (hm.metaValues k x hx)).mpr (h1 k x hx)
    · intro id x y hx hy
      rw [hx] at hy; injection hy with hy; subst hy
      refine ⟨.inr (.inr (SameDef.refl _)), ?_, h3 id x hx⟩
      intro t p q hp hq
      rw [hp] at hq; injection hq with hq; subst hq
      exact (TraitMerge.self_iff p (fun v hv => (hm.shapes id x hx).traits.values t v (hv ▸ hp))).mpr
        fun v hv => h2 id x t v hx (hv ▸ hp)

/-- C20 is violated: array metadata is doubled, and so are array traits. -/
theorem C20_self_merge_doubles (m : Model) (hm : WfModel m) (hok : (m.merge m).2 = .ok ()) :
    (∀ k a, m.metadataValue k = some (.array a) → (m.merge m).1.metadataValue k = some (.array (a ++ a))) ∧
    (∀ id s t a, m.shape id = some s → s.traits.get t = some (some (.array a)) →
      ∃ s', (m.merge m).1.shape id = some s' ∧ s'.traits.get t = some (some (.array (a ++ a)))) := by
  have h := merge_spec hm hm hok
  constructor
  · intro k a ha
    have hk := h.metadata k
    simp only [Model.metadataValue] at ha ⊢
    rw [ha] at hk
    generalize AMap.get (m.merge m).1.metadata k = C at *
    cases hk with | both hm =>
    exact congrArg some (MetaMerge.functional hm .concat)
  · intro id s t a hs ha
    have hk := h.shapes id
    simp only [Model.shape] at hs ⊢
    rw [hs] at hk
    generalize AMap.get (m.merge m).1.shapes id = C at *
    cases hk with | both hm =>
    refine ⟨_, rfl, ?_⟩
    have ht := hm.traits t
    rw [ha] at ht
    rename_i c
    generalize AMap.get c.traits t = D at *
    cases ht with | both hm =>
    exact congrArg some (TraitMerge.functional hm .concat)

def exArrayModel : Model := ⟨.v10, [(%s"k", .array [.none])], []⟩
def exNaNModel : Model := ⟨.v10, [(%s"k", .number (.float aNaN))], []⟩

theorem C20_self_merge_changes : (exArrayModel.merge exArrayModel).2 = .ok () ∧
    (exArrayModel.merge exArrayModel).1.metadataValue (%s"k") = some (.array [.none, .none]) ∧
    (exNaNModel.merge exNaNModel).2 = .error (.mergeMetadataConflict (%s"k")) := by
  refine ⟨rfl, rfl, ?_⟩
  decide

/-- C20, the part that holds: without self-conflicting values and without non-empty arrays, merging a model into itself
succeeds and gives the same model. -/
theorem C20_self_merge_unchanged (m : Model) (hm : WfModel m) (hl : LegalModel m)
    (h1 : ∀ k v, m.metadataValue k = some v → ¬ SelfConflict v ∧ ∀ a, v = .array a → a = [])
    (h2 : ∀ id s t v, m.shape id = some s → s.traits.get t = some (some v) → ¬ SelfConflict v ∧ ∀ a, v = .array a → a = []) :
    (m.merge m).2 = .ok () ∧ SameModel (m.merge m).1 m := by
  have hok : (m.merge m).2 = .ok () := (C20_self_merge_ok_iff m hm).mpr
    ⟨fun k v hv => (h1 k v hv).1, fun id s t v hs hv => (h2 id s t v hs hv).1, hl⟩
  refine ⟨hok, ?_⟩
  have h := merge_spec hm hm hok
  refine ⟨h.versionl, ?_, ?_⟩
  · intro k
    have hk := h.metadata k
    have h1 := h1 k
    simp only [Model.metadataValue] at h1
    generalize AMap.get (m.merge m).1.metadata k = C at *
    generalize AMap.get m.metadata k = A at *
    cases hk with
    | neither => exact .none
    | both hm =>
      cases hm with
      | concat =>
        have := (h1 _ rfl).2 _ rfl
        subst this
        exact .some (Same.refl _)
      | equal => exact .some (Same.refl _)
  · intro id
    have hk := h.shapes id
    have h2 := h2 id
    simp only [Model.shape] at h2
    generalize AMap.get (m.merge m).1.shapes id = C at *
    generalize AMap.get m.shapes id = A at *
    cases hk with
    | neither => exact .none
    | both hm =>
      rename_i a c
      refine .some ⟨hm.idl, ?_, ?_⟩
      · intro t
        have ht := hm.traits t
        have h2 := fun v => h2 a t v rfl
        generalize AMap.get a.traits t = A at *
        generalize AMap.get c.traits t = D at *
        cases ht with
        | neither => exact .none
        | both hm =>
          cases hm with
          | concat =>
            have := (h2 _ rfl).2 _ rfl
            subst this
            exact .some (.some (Same.refl _))
          | valueless => exact .some .none
          | equal => exact .some (.some (Same.refl _))
      · have := hm.body
        generalize a.body = X at *
        generalize c.body = Z at *
        cases this with
        | same => exact SameKind.refl _
        | resolve => exact SameKind.refl _
        | keep => exact SameKind.refl _

/-! ### C21 Completeness -/

theorem mem_shapesList {m : Model} (hm : WfModel m) (s : TopLevelShape) : s ∈ m.shapesList ↔ m.shape s.id = some s := by
  simp only [Model.shapesList, AMap.values, List.mem_map, Model.shape]
  constructor
  · rintro ⟨⟨id, s'⟩, he, rfl⟩
    have := AMap.get_of_mem hm.nodup he
    have hk := hm.key id s' this
    simp only
    rw [hk]; exact this
  · intro h
    exact ⟨(s.id, s), AMap.mem_of_get h, rfl⟩

/-- C21: `is_complete` says there are no unresolved shapes. -/
theorem C21_isComplete_iff (m : Model) (hm : WfModel m) :
    (m.isComplete = true ↔ m.unresolvedShapeNames = []) ∧
    (m.isComplete = true ↔ ∀ id s, m.shape id = some s → s.body ≠ .unresolved) := by
  constructor
  · simp [Model.isComplete, Model.unresolvedShapeNames, List.filter_eq_nil_iff]
  · simp only [Model.isComplete, Bool.not_eq_true', List.any_eq_false, TopLevelShape.isUnresolved]
    constructor
    · intro h id s hs hu
      have hid := hm.key id s hs
      exact h s ((mem_shapesList hm s).mpr (hid ▸ hs)) (isUnresolved_iff.mpr hu)
    · intro h s hs hu
      exact h s.id s ((mem_shapesList hm s).mp hs) (isUnresolved_iff.mp hu)

/-- `m` has a definition for `id`. -/
def Defines (m : Model) (id : ShapeID) : Prop := ∃ s, m.shape id = some s ∧ s.body ≠ .unresolved
/-- `m` has a placeholder for `id`. -/
def Placeholder (m : Model) (id : ShapeID) : Prop := ∃ s, m.shape id = some s ∧ s.body = .unresolved

theorem C21_merge_defines (a b : Model) (ha : WfModel a) (hb : WfModel b) (hok : (a.merge b).2 = .ok ()) (id : ShapeID) :
    (Defines (a.merge b).1 id ↔ Defines a id ∨ Defines b id) ∧
    (Placeholder (a.merge b).1 id ↔ (Placeholder a id ∨ Placeholder b id) ∧ ¬ Defines a id ∧ ¬ Defines b id) := by
  have h := (merge_spec ha hb hok).shapes id
  simp only [Defines, Placeholder, Model.shape]
  generalize AMap.get a.shapes id = A at *
  generalize AMap.get b.shapes id = B at *
  generalize AMap.get (a.merge b).1.shapes id = C at *
  cases h with
  | neither => simp
  | left => simp
  | right => simp
  | both hm =>
    rename_i x y z
    have hb := hm.body
    simp only [Option.some.injEq, exists_eq_left']
    generalize x.body = X at *
    generalize y.body = Y at *
    generalize z.body = Z at *
    cases hb with
    | same h1 h2 => simp [h1, h2]
    | resolve h => simp [h]
    | keep =>
      by_cases hx : X = .unresolved <;> simp [hx]

/-- C21: the merged model is complete exactly when every placeholder of either side is defined by the other. -/
theorem C21_merge_complete_iff (a b : Model) (ha : WfModel a) (hb : WfModel b) (hok : (a.merge b).2 = .ok ()) :
    (a.merge b).1.isComplete = true ↔
      (∀ id, Placeholder a id → Defines b id) ∧ (∀ id, Placeholder b id → Defines a id) := by
  rw [(C21_isComplete_iff _ (wf_merge ha hb)).2]
  have key : (∀ id s, (a.merge b).1.shape id = some s → s.body ≠ .unresolved) ↔ ∀ id, ¬ Placeholder (a.merge b).1 id := by
    constructor
    · rintro h id ⟨s, hs, hu⟩; exact h id s hs hu
    · intro h id s hs hu; exact h id ⟨s, hs, hu⟩
  have excl : ∀ (m : Model) id, Placeholder m id → ¬ Defines m id := by
    rintro m id ⟨s, hs, hu⟩ ⟨t, ht, hd⟩
    rw [hs] at ht; injection ht with ht; subst ht; exact hd hu
  rw [key]
  constructor
  · intro h
    constructor
    · intro id hp
      apply Classical.byContradiction
      intro hn
      exact h id ((C21_merge_defines a b ha hb hok id).2.mpr ⟨.inl hp, excl a id hp, hn⟩)
    · intro id hp
      apply Classical.byContradiction
      intro hn
      exact h id ((C21_merge_defines a b ha hb hok id).2.mpr ⟨.inr hp, hn, excl b id hp⟩)
  · rintro ⟨h1, h2⟩ id hp
    obtain ⟨h, ha', hb'⟩ := (C21_merge_defines a b ha hb hok id).2.mp hp
    rcases h with h | h
    · exact hb' (h1 id h)
    · exact ha' (h2 id h)

/-! ### C22 Shapes are stored under their own id -/

/-- C22: in every reachable model, a shape is found under its own id, only placeholders have member ids, and every map
has each key once. -/
theorem C22_reachable_invariant (m : Model) (h : Reachable m) :
    (∀ id s, m.shape id = some s → s.id = id) ∧
    (∀ id s, m.shape id = some s → id.isMember = true → s.body = .unresolved) ∧
    (AMap.keys m.shapes).Nodup ∧ (AMap.keys m.metadata).Nodup := by
  have hm := h.wf
  exact ⟨hm.key, hm.member, hm.nodup, hm.metaNodup⟩

theorem reachable_wf (m : Model) (h : Reachable m) : WfModel m := h.wf

/-- C22: `shape_names` and `unresolved_shape_names` partition the stored ids, each listed once. -/
theorem C22_names_partition (m : Model) (h : Reachable m) :
    (∀ id, id ∈ m.shapeNames ↔ ∃ s, m.shape id = some s ∧ s.body ≠ .unresolved) ∧
    (∀ id, id ∈ m.unresolvedShapeNames ↔ ∃ s, m.shape id = some s ∧ s.body = .unresolved) ∧
    (∀ id, id ∈ m.shapeNames → id ∉ m.unresolvedShapeNames) ∧
    (∀ id, (m.shape id).isSome = true ↔ id ∈ m.shapeNames ∨ id ∈ m.unresolvedShapeNames) ∧
    m.shapeNames.Nodup ∧ m.unresolvedShapeNames.Nodup := by
  have hm := h.wf
  have p1 : ∀ id, id ∈ m.shapeNames ↔ ∃ s, m.shape id = some s ∧ s.body ≠ .unresolved := by
    intro id
    simp only [Model.shapeNames, List.mem_map, List.mem_filter, TopLevelShape.isUnresolved, Bool.not_eq_true',
      isUnresolved_false_iff, mem_shapesList hm]
    constructor
    · rintro ⟨s, ⟨h1, h2⟩, rfl⟩; exact ⟨s, h1, h2⟩
    · rintro ⟨s, h1, h2⟩
      have hid := hm.key id s h1
      exact ⟨s, ⟨hid ▸ h1, h2⟩, hid⟩
  have p2 : ∀ id, id ∈ m.unresolvedShapeNames ↔ ∃ s, m.shape id = some s ∧ s.body = .unresolved := by
    intro id
    simp only [Model.unresolvedShapeNames, List.mem_map, List.mem_filter, TopLevelShape.isUnresolved,
      isUnresolved_iff, mem_shapesList hm]
    constructor
    · rintro ⟨s, ⟨h1, h2⟩, rfl⟩; exact ⟨s, h1, h2⟩
    · rintro ⟨s, h1, h2⟩
      have hid := hm.key id s h1
      exact ⟨s, ⟨hid ▸ h1, h2⟩, hid⟩
  have hids : m.shapesList.map (·.id) = AMap.keys m.shapes := by
    simp only [Model.shapesList, AMap.values, AMap.keys, List.map_map]
    apply List.map_congr_left
    rintro ⟨id, s⟩ he
    exact hm.key id s (AMap.get_of_mem hm.nodup he)
  have hnd : (m.shapesList.map (·.id)).Nodup := hids ▸ hm.nodup
  refine ⟨p1, p2, ?_, ?_, ?_, ?_⟩
  · intro id h1 h2
    obtain ⟨s, hs, hd⟩ := (p1 id).mp h1
    obtain ⟨t, ht, hu⟩ := (p2 id).mp h2
    rw [hs] at ht; injection ht with ht; subst ht; exact hd hu
  · intro id
    rw [p1, p2]
    constructor
    · intro h
      obtain ⟨s, hs⟩ := Option.isSome_iff_exists.mp h
      by_cases hu : s.body = .unresolved
      · exact .inr ⟨s, hs, hu⟩
      · exact .inl ⟨s, hs, hu⟩
    · rintro (⟨s, hs, _⟩ | ⟨s, hs, _⟩) <;> simp [hs]
  · exact hnd.sublist (List.Sublist.map _ List.filter_sublist)
  · exact hnd.sublist (List.Sublist.map _ List.filter_sublist)

/-! ### Concrete cases meeting the hypotheses -/

example : Reachable (((Model.new .v10).addShape (exStruct (%s"S") [(%s"a", sid (%s"T"))])).1) := by
  have h := (exModel_wf.shapes (sid (%s"S")) _ rfl)
  exact .addShape h (.new .v10)

example : (exModel.merge exModel).2 = .ok () ∧ exModel.isComplete = false := ⟨rfl, rfl⟩

end Verif
