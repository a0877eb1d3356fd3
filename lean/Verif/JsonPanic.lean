/-
When the JSON reader can panic.
-/
import Verif.JsonReaderModel

namespace Verif
open Spec

/-- The result is not a panic. -/
def NP {α : Type} (x : Except Err α) : Prop := x ≠ .error .panic

theorem np_ok {α : Type} (a : α) : NP (.ok a : Except Err α) := by intro h; cases h

theorem np_bind {α β : Type} {x : Except Err α} {f : α → Except Err β} (hx : NP x) (hf : ∀ a, x = .ok a → NP (f a)) : NP (x >>= f) := by
  intro h
  rcases bindE_eq_error h with h | ⟨a, ha, h⟩
  · exact hx h
  · exact hf a ha h

theorem np_mapE {α β : Type} {f : α → Except Err β} {l : List α} (h : ∀ x ∈ l, NP (f x)) : NP (mapE f l) := by
  intro he
  obtain ⟨x, hx, hf⟩ := mapE_error he
  exact h x hx hf

theorem np_value (j : Json) : NP (JsonReader.value j) := by
  obtain ⟨v, hv⟩ := value_total j
  rw [hv]; exact np_ok v

theorem np_shapeID (s : Str) : NP (ShapeID.fromStr s) := by
  intro h
  unfold ShapeID.fromStr at h
  repeat' split at h
  all_goals cases h

theorem np_identifier (s : Str) : NP (Identifier.fromStr s) := by
  intro h
  unfold Identifier.fromStr at h
  split at h <;> cases h

theorem np_version (s : Str) : NP (Version.fromStr s) := by
  intro h
  unfold Version.fromStr at h
  repeat' split at h
  all_goals cases h

theorem np_appendTraits (acc l : Traits) : NP (appendTraits acc l).2 := by
  induction l generalizing acc with
  | nil => exact np_ok ()
  | cons e l ih =>
    obtain ⟨id, v⟩ := e
    simp only [appendTraits]
    cases ha : applyWithValue acc id v with
    | mk acc' r =>
      cases r with
      | ok u => exact ih acc'
      | error e =>
        intro h
        cases h
        unfold applyWithValue at ha
        split at ha
        · cases ha
        · split at ha
          · rename_i old _
            unfold mergeTraits at ha
            repeat' split at ha
            all_goals (try cases ha)
            all_goals (rename_i hm; repeat' split at hm)
            all_goals cases hm
          · cases ha

theorem np_readTraits (j : Option Json) : NP (JsonReader.readTraits j) := by
  unfold JsonReader.readTraits
  split
  · unfold JsonReader.traits
    have hm : ∀ o : List (Str × Json), NP (mapE JsonReader.traitEntry o) := fun o => np_mapE fun e _ => by
      unfold JsonReader.traitEntry
      have h1 := np_shapeID e.1
      cases h : ShapeID.fromStr e.1 with
      | error er => rw [h] at h1; intro hc; cases hc; exact h1 rfl
      | ok id =>
        obtain ⟨v, hv⟩ := value_total e.2
        simp only [hv]; exact np_ok _
    rename_i vs
    have h1 := hm vs
    cases h : mapE JsonReader.traitEntry vs with
    | error er => rw [h] at h1; intro hc; cases hc; exact h1 rfl
    | ok l =>
      simp only
      have h2 := np_appendTraits [] (AMap.ofList l)
      cases ha : appendTraits [] (AMap.ofList l) with
      | mk ts r =>
        rw [ha] at h2
        cases r with
        | ok u => exact np_ok _
        | error er => intro hc; cases hc; exact h2 rfl
  · exact np_ok _

theorem np_derr {α : Type} (s : Str) : NP (.error (JsonReader.derr s) : Except Err α) := by intro h; cases h

theorem np_member (j : Option Json) : NP (JsonReader.member j) := by
  unfold JsonReader.member
  split
  · rename_i ms
    split
    · rename_i t _
      have h1 := np_shapeID t
      cases h : ShapeID.fromStr t with
      | error er => rw [h] at h1; intro hc; cases hc; exact h1 rfl
      | ok id =>
        simp only
        have h2 := np_readTraits (AMap.get ms %s"traits")
        cases h' : JsonReader.readTraits (AMap.get ms %s"traits") with
        | error er => rw [h'] at h2; intro hc; cases hc; exact h2 rfl
        | ok ts => exact np_ok _
    · exact np_derr _
  · exact np_derr _

theorem np_memberEntry (e : Str × Json) : NP (JsonReader.memberEntry e) := by
  unfold JsonReader.memberEntry
  split
  · rename_i obj _
    split
    · rename_i t _
      have h1 := np_shapeID t
      cases h : ShapeID.fromStr t with
      | error er => rw [h] at h1; intro hc; cases hc; exact h1 rfl
      | ok id =>
        simp only
        have h3 := np_identifier e.1
        cases hi : Identifier.fromStr e.1 with
        | error er => rw [hi] at h3; intro hc; cases hc; exact h3 rfl
        | ok n =>
          simp only
          have h2 := np_readTraits (AMap.get obj %s"traits")
          cases h' : JsonReader.readTraits (AMap.get obj %s"traits") with
          | error er => rw [h'] at h2; intro hc; cases hc; exact h2 rfl
          | ok ts => exact np_ok _
    · exact np_derr _
  · exact np_derr _

theorem np_members (j : Option Json) : NP (JsonReader.members j) := by
  unfold JsonReader.members
  split
  · rename_i vs
    have h1 := np_mapE (l := vs) fun e _ => np_memberEntry e
    cases h : mapE JsonReader.memberEntry vs with
    | error er => rw [h] at h1; intro hc; cases hc; exact h1 rfl
    | ok l => exact np_ok _
  · exact np_ok _

theorem np_target (j : Option Json) : NP (JsonReader.target j) := by
  unfold JsonReader.target
  split
  · split
    · exact np_shapeID _
    · exact np_derr _
  · exact np_derr _

theorem np_optionalTarget (j : Option Json) : NP (JsonReader.optionalTarget j) := by
  unfold JsonReader.optionalTarget
  split
  · exact np_ok _
  · rename_i x
    have h1 := np_target (some x)
    cases h : JsonReader.target (some x) with
    | error er => rw [h] at h1; intro hc; cases hc; exact h1 rfl
    | ok l => exact np_ok _

theorem np_targetList (j : Option Json) : NP (JsonReader.targetList j) := by
  unfold JsonReader.targetList
  split
  · exact np_mapE fun x _ => np_target _
  · exact np_derr _
  · exact np_ok _

theorem np_renamesHash (j : Option Json) : NP (JsonReader.renamesHash j) := by
  unfold JsonReader.renamesHash
  split
  · rename_i vs
    have h1 := np_mapE (l := vs) (f := JsonReader.renameEntry) fun e _ => by
      unfold JsonReader.renameEntry
      have h1 := np_shapeID e.1
      cases h : ShapeID.fromStr e.1 with
      | error er => rw [h] at h1; intro hc; cases hc; exact h1 rfl
      | ok id =>
        simp only
        cases hs : JsonReader.stringValue e.2 with
        | error er =>
          unfold JsonReader.stringValue at hs
          split at hs <;> cases hs
          exact np_derr _
        | ok s =>
          simp only
          have h3 := np_identifier s
          cases hi : Identifier.fromStr s with
          | error er => rw [hi] at h3; intro hc; cases hc; exact h3 rfl
          | ok n => exact np_ok _
    cases h : mapE JsonReader.renameEntry vs with
    | error er => rw [h] at h1; intro hc; cases hc; exact h1 rfl
    | ok l => exact np_ok _
  · exact np_derr _
  · exact np_ok _

theorem np_identifiersHash (j : Option Json) : NP (JsonReader.identifiersHash j) := by
  unfold JsonReader.identifiersHash
  split
  · rename_i vs
    have h1 := np_mapE (l := vs) (f := JsonReader.identifierEntry) fun e _ => by
      unfold JsonReader.identifierEntry
      have h3 := np_identifier e.1
      cases hi : Identifier.fromStr e.1 with
      | error er => rw [hi] at h3; intro hc; cases hc; exact h3 rfl
      | ok n =>
        simp only
        have h1 := np_target (some e.2)
        cases h : JsonReader.target (some e.2) with
        | error er => rw [h] at h1; intro hc; cases hc; exact h1 rfl
        | ok id => exact np_ok _
    cases h : mapE JsonReader.identifierEntry vs with
    | error er => rw [h] at h1; intro hc; cases hc; exact h1 rfl
    | ok l => exact np_ok _
  · exact np_derr _
  · exact np_ok _

/-- Reading a shape panics only for a service with an empty version. -/
theorem shape_panics {j : Json} (h : JsonReader.shape j = .error .panic) :
    j.get %s"type" = some (.string %s"service") ∧ j.get %s"version" = some (.string []) := by
  unfold JsonReader.shape at h
  split at h
  rotate_left
  · cases h
  rename_i s hs
  split at h
  · cases h
  · have hlist : ∀ (k : MemberShape → ShapeKind), NP (do
        let m ← JsonReader.member (j.get %s"member")
        let m ← listFrom m
        .ok (k m)) := fun k => np_bind (np_member _) fun m hm => np_bind (by
          cases hj : j.get %s"member" with
          | none => rw [hj] at hm; cases hm
          | some x =>
            have : m.id = memberMember := by
              unfold JsonReader.member at hm
              repeat' split at hm
              all_goals cases hm
              rfl
            unfold listFrom
            rw [if_pos this]
            exact np_ok _) fun _ _ => np_ok _
    split at h
    · cases h
    split at h
    · exact absurd h (hlist .list)
    split at h
    · exact absurd h (hlist .set)
    split at h
    · exact absurd h (np_bind (np_member _) fun _ _ => np_bind (np_member _) fun _ _ => np_ok _)
    split at h
    · exact absurd h (np_bind (np_members _) fun _ _ => np_ok _)
    split at h
    · exact absurd h (np_bind (np_members _) fun _ _ => np_ok _)
    split at h
    · rename_i he; subst he
      refine ⟨hs, ?_⟩
      unfold JsonReader.service at h
      split at h
      · rename_i v hv
        cases v with
        | nil => exact hv
        | cons c v =>
          refine absurd h (np_bind (by simp [Service.new, NP]) fun _ _ => np_bind (np_targetList _) fun _ _ =>
            np_bind (np_targetList _) fun _ _ => np_bind (np_renamesHash _) fun _ _ => np_ok _)
      · cases h
    split at h
    · exact absurd h (np_bind (np_optionalTarget _) fun _ _ => np_bind (np_optionalTarget _) fun _ _ =>
        np_bind (np_targetList _) fun _ _ => np_ok _)
    split at h
    · exact absurd h (np_bind (np_identifiersHash _) fun _ _ => np_bind (np_optionalTarget _) fun _ _ =>
        np_bind (np_optionalTarget _) fun _ _ => np_bind (np_optionalTarget _) fun _ _ => np_bind (np_optionalTarget _) fun _ _ =>
        np_bind (np_optionalTarget _) fun _ _ => np_bind (np_optionalTarget _) fun _ _ => np_bind (np_targetList _) fun _ _ =>
        np_bind (np_targetList _) fun _ _ => np_bind (np_targetList _) fun _ _ => np_ok _)
    cases h

theorem shapeEntry_panics {e : Str × Json} (h : JsonReader.shapeEntry e = .error .panic) :
    e.2.get %s"type" = some (.string %s"service") ∧ e.2.get %s"version" = some (.string []) := by
  unfold JsonReader.shapeEntry at h
  have h1 := np_shapeID e.1
  cases hi : ShapeID.fromStr e.1 with
  | error er => rw [hi] at h h1; simp only at h; cases h; exact absurd rfl h1
  | ok id =>
    simp only [hi] at h
    cases hs : JsonReader.shape e.2 with
    | error er => simp only [hs] at h; cases h; exact shape_panics hs
    | ok b =>
      simp only [hs] at h
      have h2 := np_readTraits (e.2.get %s"traits")
      cases ht : JsonReader.readTraits (e.2.get %s"traits") with
      | error er => rw [ht] at h h2; simp only at h; cases h; exact absurd rfl h2
      | ok ts => simp [ht] at h

theorem np_addAllMetadata (m : Model) (l : List (Str × Value)) : NP (m.addAllMetadata l).2 := by
  induction l generalizing m with
  | nil => exact np_ok ()
  | cons e l ih =>
    obtain ⟨k, v⟩ := e
    simp only [Model.addAllMetadata]
    cases ha : m.addMetadata k v with
    | mk m' r =>
      cases r with
      | ok u => exact ih m'
      | error e =>
        intro h
        cases h
        unfold Model.addMetadata at ha
        repeat' split at ha
        all_goals cases ha

theorem np_addAllShapes_fresh (v : Version) (md : AMap Str Value) (acc l : AMap ShapeID TopLevelShape) (h : AMap.Wf (acc ++ l))
    (hk : ∀ e ∈ l, e.2.id = e.1) : NP ((Model.mk v md acc).addAllShapes l).2 := by
  induction l generalizing acc with
  | nil => exact np_ok ()
  | cons e l ih =>
    obtain ⟨k, x⟩ := e
    have hkn : k ∉ AMap.keys acc := by
      simp only [AMap.Wf, AMap.keys, List.map_append, List.map_cons, List.nodup_append] at h
      intro hk; exact h.2.2 k hk k (by simp) rfl
    have hid : x.id = k := hk (k, x) (by simp)
    simp only [Model.addAllShapes]
    unfold Model.addShape
    by_cases hc : (x.id.isMember && !x.body.isUnresolved) = true
    · rw [if_pos hc]; intro h; cases h
    · rw [if_neg hc]
      simp only [Model.shape, hid, (AMap.not_mem_keys_iff acc k).mp hkn, AMap.insert_of_not_mem x hkn]
      exact ih _ (by simpa using h) fun e he => hk e (by simp [he])

/-- Reading a document panics only if it defines a service with an empty version. -/
theorem model_panics {j : Json} (hj : WfJson j) (h : JsonReader.model j = .error .panic) : EmptyServiceVersion j := by
  unfold JsonReader.model at h
  split at h
  rotate_left
  · cases h
  rename_i o
  cases hv : JsonReader.version (AMap.get o %s"smithy") with
  | error e =>
    simp only [hv] at h
    cases h
    unfold JsonReader.version at hv
    split at hv
    · exact absurd hv (np_version _)
    · cases hv
  | ok v =>
    simp only [hv] at h
    cases hmd : JsonReader.metadata (AMap.get o %s"metadata") with
    | error e =>
      unfold JsonReader.metadata at hmd
      split at hmd
      · rename_i vs hvs
        obtain ⟨l, hl⟩ := valueEntries_total vs
        simp [hl] at hmd
      · cases hmd
    | ok md =>
      simp only [hmd] at h
      have hnp := np_addAllMetadata (Model.new v) md
      have hsh : ∃ md', ((Model.new v).addAllMetadata md).1 = ⟨v, md', []⟩ :=
        addAllMetadata_invariant (fun m => ∃ md', m = ⟨v, md', []⟩) (fun m e _ ⟨md', hm⟩ => by
          subst hm; rw [(addMetadata_eq _ _ _).1]; exact ⟨_, rfl⟩) _ ⟨[], rfl⟩
      cases haa : (Model.new v).addAllMetadata md with
      | mk m1 r =>
        rw [haa] at hsh hnp
        obtain ⟨md', rfl⟩ := hsh
        cases r with
        | error e => simp only [haa] at h; cases h; exact absurd rfl hnp
        | ok u =>
          simp only [haa] at h
          cases hss : JsonReader.shapes (AMap.get o %s"shapes") with
          | error e =>
            simp only [hss] at h
            cases h
            unfold JsonReader.shapes at hss
            split at hss
            · rename_i vs hvs
              obtain ⟨⟨k, x⟩, hm, he⟩ := mapE_error hss
              have hvw : AMap.Wf vs := by
                have := WfJson.get (j := .object o) hj hvs
                cases this; assumption
              obtain ⟨h1, h2⟩ := shapeEntry_panics he
              exact ⟨vs, k, x, hvs, AMap.get_of_mem hvw hm, h1, h2⟩
            · cases hss
          | ok ss =>
            simp only [hss] at h
            exfalso
            have hw : AMap.Wf ss ∧ ∀ e ∈ ss, e.2.id = e.1 := by
              unfold JsonReader.shapes at hss
              split at hss
              · rename_i vs hvs
                have hvw := WfJson.get (j := .object o) hj hvs
                cases hvw with
                | object hvw he =>
                  refine ⟨(objOf_of_mapE (name := ShapeID.display) (R := fun _ _ => True) hvw hss
                    fun e hm y hy => ⟨(shapeEntry_spec (he e hm) hy).1, trivial⟩).1, fun e hm => ?_⟩
                  obtain ⟨x, hx, hxy⟩ := ListRel.mem_right (mapE_iff.mp hss) hm
                  exact (shapeEntry_spec (he x hx) hxy).2.1
              · cases hss; exact ⟨AMap.wf_nil, by simp⟩
            have h3 := np_addAllShapes_fresh v md' [] ss (by simpa using hw.1) hw.2
            cases hab : (Model.mk v md' []).addAllShapes ss with
            | mk m2 r =>
              rw [hab] at h3
              cases r with
              | ok u => simp [hab] at h
              | error e => simp only [hab] at h; cases h; exact h3 rfl

end Verif
