/-
Property theorems C101, continued: histories of calls and edits, and what `set_id` through `shape_mut` does to a model.
-/
import Verif.EditingProps
import Mathlib.Data.List.Nodup

namespace Verif
open Spec

/-- What stays true of a model under any calls and edits but `set_id`: C22, without what it says of placeholders. -/
structure Kept (m : Model) : Prop where
  metaNodup : AMap.Wf m.metadata
  metaValues : ∀ k v, m.metadata.get k = some v → v.Wf
  nodup : AMap.Wf m.shapes
  key : ∀ id s, m.shape id = some s → s.id = id
  shapes : ∀ id s, m.shape id = some s → WfShape s

/-- The model without its shapes; a means to reuse what is known of well-formed models. -/
theorem kept_metadata {m : Model} (h : Kept m) : WfModel { m with shapes := [] } :=
  ⟨h.metaNodup, h.metaValues, AMap.wf_nil, fun _ _ h => (by cases h), fun _ _ h => (by cases h), fun _ _ h => (by cases h)⟩

theorem kept_addMetadata {m : Model} (h : Kept m) (k : Str) {v : Value} (hv : v.Wf) : Kept (m.addMetadata k v).1 := by
  have hw := wf_addMetadata (kept_metadata h) k hv
  have e1 : (Model.addMetadata { m with shapes := [] } k v).1.metadata = (m.addMetadata k v).1.metadata := by
    unfold Model.addMetadata Model.metadataValue
    cases AMap.get m.metadata k with
    | none => rfl
    | some x => simp only; split <;> (try split) <;> rfl
  have e2 : (m.addMetadata k v).1.shapes = m.shapes := by
    unfold Model.addMetadata Model.metadataValue
    cases AMap.get m.metadata k with
    | none => rfl
    | some x => simp only; split <;> (try split) <;> rfl
  refine ⟨e1 ▸ hw.metaNodup, e1 ▸ hw.metaValues, e2 ▸ h.nodup, ?_, ?_⟩
  · unfold Model.shape; rw [e2]; exact h.key
  · unfold Model.shape; rw [e2]; exact h.shapes

theorem kept_addShape {m : Model} (hm : Kept m) {s : TopLevelShape} (hs : WfShape s) : Kept (m.addShape s).1 := by
  refine ⟨?_, ?_, ?_, ?_, ?_⟩
  · rw [addShape_eq]; exact hm.metaNodup
  · rw [addShape_eq]; exact hm.metaValues
  · rw [addShape_eq]; exact AMap.wf_insertOpt hm.nodup _ _
  · intro j t ht
    rcases addShape_stored ht with h | ⟨rfl, rfl, _⟩ | ⟨rfl, _, e, he, rfl⟩
    · exact hm.key j t h
    · rfl
    · exact (reconcile_frame e s).1.trans (hm.key _ e he)
  · intro j t ht
    rcases addShape_stored ht with h | ⟨rfl, rfl, _⟩ | ⟨rfl, _, e, he, rfl⟩
    · exact hm.shapes j t h
    · exact hs
    · exact reconcile_wf (hm.shapes _ e he) hs

theorem applyWithValue_wf {ts : Traits} (hts : WfTraits ts) {id : ShapeID} {v : TraitValue} (hv : ∀ x, v = some x → x.Wf) :
    WfTraits (applyWithValue ts id v).1 := by
  have : appendTraits ts [(id, v)] = applyWithValue ts id v := by
    unfold appendTraits
    cases applyWithValue ts id v with
    | mk ts' r => cases r <;> rfl
  rw [← this]
  refine appendTraits_wf hts ⟨by simp [AMap.Wf, AMap.keys], fun j x hx => ?_⟩
  rw [AMap.get_cons] at hx
  split at hx
  · injection hx with hx; exact hv x hx
  · cases hx

theorem call_wf {ts : Traits} (hts : WfTraits ts) {c : TraitCall} (h1 : ∀ id v, c = .applyWithValue id (some v) → v.Wf)
    (h2 : ∀ l, c = .append l → WfTraits l) : WfTraits (c.run ts).1 := by
  cases c with
  | apply id => exact applyWithValue_wf hts (fun x h => by cases h)
  | applyWithValue id v => exact applyWithValue_wf hts (fun x h => h1 id x (by rw [h]))
  | append l => exact appendTraits_wf hts (h2 l rfl)
  | remove id =>
    refine ⟨AMap.wf_erase hts.nodup _, fun j x hx => ?_⟩
    change AMap.get (AMap.erase ts id) j = _ at hx
    rw [AMap.get_erase] at hx
    split at hx
    · cases hx
    · exact hts.values j x hx

theorem edit_keeps {e : ShapeEdit} (he : KeepsId e) {s : TopLevelShape} (hs : WfShape s) : (e.run s).id = s.id ∧ WfShape (e.run s) := by
  cases he with
  | setBody h => exact ⟨rfl, hs.traits, h⟩
  | traits h1 h2 => exact ⟨rfl, call_wf hs.traits h1 h2, hs.body⟩
  | traitsMut h => exact ⟨rfl, h, hs.body⟩

theorem kept_edit {m : Model} (h : Kept m) (id : ShapeID) {e : ShapeEdit} (he : KeepsId e) : Kept (m.editShape id e) := by
  obtain ⟨-, -, f1, f2, -, -⟩ := C101_edit_frame m id e
  refine ⟨f2 ▸ h.metaNodup, f2 ▸ h.metaValues, ?_, fun j t ht => ?_, fun j t ht => ?_⟩
  · unfold AMap.Wf; rw [f1]; exact h.nodup
  · rw [editShape_shape] at ht
    by_cases hj : j = id
    · subst hj
      rw [if_pos rfl] at ht
      obtain ⟨s, hs, rfl⟩ := Option.map_eq_some_iff.mp ht
      rw [(edit_keeps he (h.shapes j s hs)).1]; exact h.key j s hs
    · rw [if_neg hj] at ht; exact h.key j t ht
  · rw [editShape_shape] at ht
    by_cases hj : j = id
    · subst hj
      rw [if_pos rfl] at ht
      obtain ⟨s, hs, rfl⟩ := Option.map_eq_some_iff.mp ht
      exact (edit_keeps he (h.shapes j s hs)).2
    · rw [if_neg hj] at ht; exact h.shapes j t ht

theorem Spec.EditReachable.kept {m : Model} (h : EditReachable m) : Kept m := by
  induction h with
  | new v => exact ⟨AMap.wf_nil, fun _ _ h => (by cases h), AMap.wf_nil, fun _ _ h => (by cases h), fun _ _ h => (by cases h)⟩
  | addMetadata k hv _ ih => exact kept_addMetadata ih k hv
  | @removeMetadata m k _ ih =>
    have hw := wf_removeMetadata (kept_metadata ih) k
    exact ⟨hw.metaNodup, hw.metaValues, ih.nodup, ih.key, ih.shapes⟩
  | addShape hs _ ih => exact kept_addShape ih hs
  | removeShape id _ ih =>
    refine ⟨ih.metaNodup, ih.metaValues, AMap.wf_erase ih.nodup _, fun j t ht => ?_, fun j t ht => ?_⟩
    · change AMap.get (AMap.erase _ id) j = some t at ht
      rw [AMap.get_erase] at ht
      split at ht
      · cases ht
      · exact ih.key j t ht
    · change AMap.get (AMap.erase _ id) j = some t at ht
      rw [AMap.get_erase] at ht
      split at ht
      · cases ht
      · exact ih.shapes j t ht
  | merge _ _ iha ihb =>
    exact merge_invariant Kept
      (fun _ e he hm => kept_addMetadata hm e.1 (ihb.metaValues e.1 e.2 (AMap.get_of_mem ihb.metaNodup he)))
      (fun _ e he hm => kept_addShape hm (ihb.shapes e.1 e.2 (AMap.get_of_mem ihb.nodup he))) _ iha
  | edit id he _ ih => exact kept_edit ih id he

/-- C101: whatever calls of `Model` and edits through `shape_mut` are made, as long as no edit is `set_id`, each shape is found under its
own id and each key is there once. -/
theorem C101_reachable (m : Model) (h : EditReachable m) :
    (∀ id s, m.shape id = some s → s.id = id) ∧ (AMap.keys m.shapes).Nodup ∧ (AMap.keys m.metadata).Nodup :=
  ⟨h.kept.key, h.kept.nodup, h.kept.metaNodup⟩

/-- C101: the models of C22 are among these. -/
theorem C101_extends (m : Model) (h : Reachable m) : EditReachable m := by
  induction h with
  | new v => exact .new v
  | addMetadata k hv _ ih => exact .addMetadata k hv ih
  | removeMetadata k _ ih => exact .removeMetadata k ih
  | addShape hs _ ih => exact .addShape hs ih
  | removeShape id _ ih => exact .removeShape id ih
  | merge _ _ iha ihb => exact .merge iha ihb

/-- C101 is violated by `set_body` on a placeholder with the id of a member: the model then has a definition under the id of a member,
which `add_shape` does not let in (C22), so that the model cannot be merged into the empty model. -/
theorem C101_placeholder_violated (id : ShapeID) (hid : id.isMember = true) (b : ShapeKind) (hb : WfKind b) (hu : b ≠ .unresolved) :
    let m := ((Model.new .v10).addShape (TopLevelShape.new id .unresolved)).1.editShape id (.setBody b)
    EditReachable m ∧ m.shape id = some (TopLevelShape.new id b) ∧
      ((Model.new .v10).merge m).2 = .error (.shapeIDExpected id) := by
  intro m
  have hm : m = ⟨.v10, [], [(id, TopLevelShape.new id b)]⟩ := by
    have h1 : ((Model.new .v10).addShape (TopLevelShape.new id .unresolved)).1 = ⟨.v10, [], [(id, TopLevelShape.new id .unresolved)]⟩ := by
      rw [addShape_eq]
      have : updShape (TopLevelShape.new id .unresolved).id (AMap.get (Model.new .v10).shapes (TopLevelShape.new id .unresolved).id)
          (TopLevelShape.new id .unresolved) = (some (TopLevelShape.new id .unresolved), .ok ()) := by
        unfold updShape
        rw [if_neg]
        · rfl
        · change ¬ (id.isMember && !true) = true
          simp
      rw [this]; rfl
    change Model.editShape _ _ _ = _
    rw [h1]
    unfold Model.editShape
    rw [AMap.get_cons, if_pos rfl]
    simp only [AMap.insert, if_true]; rfl
  refine ⟨.edit id (.setBody hb) (.addShape ⟨noTraits_wf, trivial⟩ (.new _)), ?_, ?_⟩
  · rw [hm]; unfold Model.shape; rw [AMap.get_cons, if_pos rfl]
  · rw [hm]
    have hc : (id.isMember && !b.isUnresolved) = true := by
      rw [hid, isUnresolved_false_iff.mpr hu]; rfl
    have : (Model.new .v10).addShape (TopLevelShape.new id b) = (Model.new .v10, .error (.shapeIDExpected id)) := by
      exact if_pos hc
    unfold Model.merge
    change (Model.addAllShapes (Model.new .v10) [(id, TopLevelShape.new id b)]).2 = _
    unfold Model.addAllShapes
    rw [this]

/-! ### `set_id` -/

/-- What is filed under an id is added under the id it has. -/
theorem addAllShapes_rekey (l : List (ShapeID × TopLevelShape)) : ∀ m : Model,
    m.addAllShapes l = m.addAllShapes (l.map fun e => (e.2.id, e.2)) := by
  induction l with
  | nil => intro m; rfl
  | cons e t ih =>
    obtain ⟨k, s⟩ := e
    intro m
    rw [List.map_cons]
    unfold Model.addAllShapes
    cases m.addShape s with
    | mk m' r => cases r with
      | ok u => exact ih m'
      | error e => rfl

theorem insert_eq_map {K V : Type} [DecidableEq K] {m : AMap K V} (hw : AMap.Wf m) {k : K} (hk : k ∈ AMap.keys m) (v : V) :
    AMap.insert m k v = m.map fun e => if e.1 = k then (k, v) else e := by
  induction m with
  | nil => cases hk
  | cons e t ih =>
    obtain ⟨a, x⟩ := e
    obtain ⟨hn, hw⟩ := AMap.wf_cons.mp hw
    rw [List.map_cons]
    by_cases ha : a = k
    · subst ha
      rw [AMap.insert, if_pos rfl, if_pos rfl]
      have : t.map (fun e => if e.1 = a then (a, v) else e) = t := by
        rw [List.map_congr_left (g := id), List.map_id]
        rintro ⟨b, y⟩ hb
        rw [if_neg]; · rfl
        rintro rfl
        exact hn (List.mem_map.mpr ⟨_, hb, rfl⟩)
      rw [this]
    · rw [AMap.insert, if_neg ha, if_neg ha, ih hw]
      rcases List.mem_cons.mp hk with h | h
      · exact absurd h.symm ha
      · exact h

/-- C101, about `set_id` through `shape_mut`: the shape is still found under the old id only, but says, and is listed by `shape_names`
as, the new one; so `shape` does not find what `shape_names` lists, and C22 no longer holds. -/
theorem C101_set_id (m : Model) (hm : WfModel m) (id j : ShapeID) (s : TopLevelShape) (hs : m.shape id = some s) (hj : j ≠ id)
    (hn : m.shape j = none) :
    let e := m.editShape id (.setId j)
    e.shape id = some ⟨j, s.traits, s.body⟩ ∧ e.shape j = none ∧
    (s.body ≠ .unresolved → j ∈ e.shapeNames ∧ id ∉ e.shapeNames) := by
  intro e
  obtain ⟨f1, f2, f3, -, -, -⟩ := C101_edit_frame m id (.setId j)
  rw [hs] at f1
  refine ⟨f1, (f2 j hj).trans hn, fun hu => ?_⟩
  have hw : AMap.Wf (m.editShape id (.setId j)).shapes := by unfold AMap.Wf; rw [f3]; exact hm.nodup
  constructor
  · simp only [Model.shapeNames, List.mem_map, List.mem_filter, TopLevelShape.isUnresolved, Bool.not_eq_true', isUnresolved_false_iff,
      Model.shapesList, AMap.values]
    exact ⟨⟨j, s.traits, s.body⟩, ⟨⟨(id, _), AMap.mem_of_get f1, rfl⟩, hu⟩, rfl⟩
  · simp only [Model.shapeNames, List.mem_map, List.mem_filter, TopLevelShape.isUnresolved, Bool.not_eq_true', isUnresolved_false_iff,
      Model.shapesList, AMap.values]
    rintro ⟨t, ⟨⟨⟨k, t'⟩, hk, rfl⟩, -⟩, ht⟩
    have hg : (m.editShape id (.setId j)).shape k = some t' := AMap.get_of_mem hw hk
    by_cases hki : k = id
    · subst hki; rw [f1] at hg; injection hg with hg; subst hg; exact hj ht
    · rw [f2 k hki] at hg; exact hki ((hm.key k t' hg).symm.trans ht)

/-- C101: merging such a model into an empty one files the shape under its new id, and so does what was meant; nothing else changes. -/
theorem C101_set_id_merged (m : Model) (hm : WfModel m) (id j : ShapeID) (s : TopLevelShape) (hs : m.shape id = some s) (hj : j ≠ id)
    (hn : m.shape j = none) (hl : j.isMember = true → s.body = .unresolved) :
    ∃ r, (Model.new m.version).merge (m.editShape id (.setId j)) = (r, .ok ()) ∧ WfModel r ∧
      r.shape j = some ⟨j, s.traits, s.body⟩ ∧ r.shape id = none ∧ (∀ k, k ≠ id → k ≠ j → r.shape k = m.shape k) ∧
      r.metadata = m.metadata ∧ r.version = m.version := by
  let g : ShapeID × TopLevelShape → ShapeID × TopLevelShape := fun e => if e.1 = id then (j, ⟨j, s.traits, s.body⟩) else e
  have hmem : id ∈ AMap.keys m.shapes := by rw [AMap.mem_keys_iff]; unfold Model.shape at hs; rw [hs]; rfl
  have hnj : j ∉ AMap.keys m.shapes := by rw [AMap.not_mem_keys_iff]; exact hn
  have hed : m.editShape id (.setId j) = { m with shapes := m.shapes.map fun e => if e.1 = id then (id, ⟨j, s.traits, s.body⟩) else e } := by
    unfold Model.editShape
    unfold Model.shape at hs
    rw [hs]
    simp only
    rw [insert_eq_map hm.nodup hmem]; rfl
  let r : Model := { m with shapes := m.shapes.map g }
  have hkeys : AMap.keys (m.shapes.map g) = (AMap.keys m.shapes).map fun k => if k = id then j else k := by
    unfold AMap.keys
    rw [List.map_map, List.map_map]
    apply List.map_congr_left
    rintro ⟨k, t⟩ -
    simp only [Function.comp, g]
    split <;> rfl
  have hnod : AMap.Wf (m.shapes.map g) := by
    unfold AMap.Wf; rw [hkeys]
    refine List.Nodup.map_on ?_ hm.nodup
    intro x hx y hy hxy
    by_cases h1 : x = id <;> by_cases h2 : y = id
    · rw [h1, h2]
    · rw [if_pos h1, if_neg h2] at hxy; exact absurd (hxy ▸ hy) hnj
    · rw [if_neg h1, if_pos h2] at hxy; exact absurd (hxy ▸ hx) hnj
    · rwa [if_neg h1, if_neg h2] at hxy
  have inv : ∀ k t, r.shape k = some t → (k = j ∧ t = ⟨j, s.traits, s.body⟩) ∨ (k ≠ id ∧ m.shape k = some t) := by
    intro k t h
    obtain ⟨⟨k', t'⟩, he, hg⟩ := List.mem_map.mp (AMap.mem_of_get h)
    simp only [g] at hg
    by_cases hk : k' = id
    · rw [if_pos hk] at hg; injection hg with h1 h2; exact .inl ⟨h1.symm, h2.symm⟩
    · rw [if_neg hk] at hg; injection hg with h1 h2; subst h1 h2; exact .inr ⟨hk, AMap.get_of_mem hm.nodup he⟩
  have hr : WfModel r := by
    refine ⟨hm.metaNodup, hm.metaValues, hnod, fun k t h => ?_, fun k t h hmk => ?_, fun k t h => ?_⟩
    · rcases inv k t h with ⟨rfl, rfl⟩ | ⟨-, h⟩
      · rfl
      · exact hm.key k t h
    · rcases inv k t h with ⟨rfl, rfl⟩ | ⟨-, h⟩
      · exact hl hmk
      · exact hm.member k t h hmk
    · rcases inv k t h with ⟨rfl, rfl⟩ | ⟨-, h⟩
      · exact ⟨(hm.shapes id s hs).traits, (hm.shapes id s hs).body⟩
      · exact hm.shapes k t h
  have hrekey : (m.shapes.map fun e => if e.1 = id then (id, (⟨j, s.traits, s.body⟩ : TopLevelShape)) else e).map (fun e => (e.2.id, e.2)) = r.shapes := by
    change _ = m.shapes.map g
    rw [List.map_map]
    apply List.map_congr_left
    rintro ⟨k, t⟩ he
    simp only [Function.comp, g]
    split
    · rfl
    · rw [hm.key k t (AMap.get_of_mem hm.nodup he)]
  have hmerge : (Model.new m.version).merge (m.editShape id (.setId j)) = (Model.new m.version).merge r := by
    rw [hed]
    unfold Model.merge
    simp only [r]
    rw [show m.shapes.map g = r.shapes from rfl, ← hrekey]
    simp only [← addAllShapes_rekey]
  refine ⟨r, hmerge.trans (C16_merge_empty r hr).2, hr, ?_, ?_, ?_, rfl, rfl⟩
  · apply AMap.get_of_mem hnod
    refine List.mem_map.mpr ⟨(id, s), AMap.mem_of_get hs, ?_⟩
    exact if_pos rfl
  · cases h : r.shape id with
    | none => rfl
    | some t =>
      rcases inv id t h with ⟨h, -⟩ | ⟨h, -⟩
      · exact absurd h.symm hj
      · exact absurd rfl h
  · intro k h1 h2
    cases h : m.shape k with
    | none =>
      cases h' : r.shape k with
      | none => rfl
      | some t =>
        rcases inv k t h' with ⟨h3, -⟩ | ⟨-, h3⟩
        · exact absurd h3 h2
        · rw [h] at h3; cases h3
    | some t =>
      apply AMap.get_of_mem hnod
      refine List.mem_map.mpr ⟨(k, t), AMap.mem_of_get h, ?_⟩
      simp only [g]; rw [if_neg h1]

/-- A case of the two theorems above. -/
example : ∃ m id j s, WfModel m ∧ m.shape id = some s ∧ j ≠ id ∧ m.shape j = none ∧ s.body ≠ .unresolved ∧ ShapeID.isMember j = false :=
  ⟨⟨.v10, [], [(⟨%s"a", %s"B", none⟩, ⟨⟨%s"a", %s"B", none⟩, [], .simple .string⟩)]⟩, ⟨%s"a", %s"B", none⟩, ⟨%s"a", %s"C", none⟩, _,
    (Reachable.addShape (s := ⟨⟨%s"a", %s"B", none⟩, [], .simple .string⟩) ⟨noTraits_wf, trivial⟩ (.new .v10)).wf, rfl, by decide, rfl,
    (by intro h; cases h), rfl⟩

/-! ### C13 Comparing shapes -/

/-- C13: `equal_without_traits` of two shapes, of any ids, is true exactly when their ids are `==` and their definitions agree; shapes
of other ids are never equal, and comparing them does not panic. -/
theorem C13_equal_without_traits (a b : TopLevelShape) (ha : WfShape a) (hb : WfShape b) :
    (a.equalWithoutTraits b = .ok true ↔ SameId a.id b.id ∧ SameDef a.body b.body) ∧
    (¬ SameId a.id b.id → a.equalWithoutTraits b = .ok false) := by
  unfold TopLevelShape.equalWithoutTraits SameId
  by_cases h : a.id.ceq b.id = true
  · rw [if_pos h, kind_equalWithoutTraits_iff ha.body hb.body]
    exact ⟨⟨fun x => ⟨h, x⟩, fun x => x.2⟩, fun x => absurd h x⟩
  · rw [if_neg h]
    exact ⟨⟨fun x => (by cases x), fun x => absurd x.1 h⟩, fun _ => rfl⟩

/-- A case of the above: `a#B` and `a#b` are equal. -/
example : (TopLevelShape.new ⟨%s"a", %s"B", none⟩ (.simple .string)).equalWithoutTraits (TopLevelShape.new ⟨%s"a", %s"b", none⟩ (.simple .string)) =
    .ok true := rfl

end Verif
