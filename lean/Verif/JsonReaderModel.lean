/-
What the JSON reader guarantees about the shapes and models it accepts, and when it panics.
-/
import Verif.JsonReader
import Verif.ServiceProps

namespace Verif
open Spec

/-! ### Bodies -/

/-- What holds of every body that was read. -/
structure GoodKind (k : ShapeKind) : Prop where
  wf : WfKind k
  valid : ValidKind k
  finite : KindAll (fun v => ¬ NonFinite v) k
  stays : KindRoundTrips k

theorem wfMembers_of {ms : AMap Str MemberShape} (hw : AMap.Wf ms)
    (h : ∀ k m, ms.get k = some m → m.id = k ∧ IsIdentifier k ∧ GoodMember m) : WfMembers ms :=
  ⟨hw, fun k m hm => (h k m hm).1, fun k m hm => (h k m hm).2.2.traits.wf⟩

theorem listFrom_eq {m m' : MemberShape} (h : listFrom m = .ok m') : m' = m := by
  unfold listFrom at h
  split at h <;> cases h
  rfl

theorem shape_spec {j : Json} {k : ShapeKind} (hj : WfJson j) (h : JsonReader.shape j = .ok k) :
    GoodKind k ∧ (StrictShape j → ¬ HasBigInt j → ∃ o, j = .object o ∧ AMap.Wf o ∧ KindOf k o) := by
  have hget : ∀ {k x}, j.get k = some x → WfJson x := fun hx => hj.get hx
  have hbig : ∀ {k x}, ¬ HasBigInt j → j.get k = some x → ¬ HasBigInt x := fun hb hx h => hb (.get hx h)
  unfold JsonReader.shape at h
  split at h
  · rename_i s hs
    obtain ⟨o, rfl⟩ : ∃ o, j = .object o := by cases j <;> first | exact ⟨_, rfl⟩ | (simp [Json.get] at hs)
    have ho : AMap.Wf o := by cases hj; assumption
    have fin : ∀ {k}, GoodKind k → (StrictShape (.object o) → ¬ HasBigInt (.object o) → KindOf k o) →
      GoodKind k ∧ (StrictShape (.object o) → ¬ HasBigInt (.object o) → ∃ o', Json.object o = .object o' ∧ AMap.Wf o' ∧ KindOf k o') :=
      fun hg hk => ⟨hg, fun a b => ⟨o, rfl, ho, hk a b⟩⟩
    simp only [Json.get] at hs
    cases hsm : Simple.fromStr s with
    | ok st =>
      simp only [hsm] at h; cases h
      exact fin ⟨trivial, trivial, trivial, trivial⟩ fun _ _ => by rw [KindOf, hs, (C08_simple.2.1 s st).mp hsm]
    | error e =>
      simp only [hsm] at h
      split at h
      · rename_i he; subst he; cases h
        exact fin ⟨trivial, trivial, trivial, trivial⟩ fun _ _ => hs
      split at h
      · rename_i he; subst he
        obtain ⟨m, hm, h⟩ := bindE_eq_ok h
        obtain ⟨m', hm', h⟩ := bindE_eq_ok h
        cases h
        cases listFrom_eq hm'
        obtain ⟨hn, hg, hk⟩ := member_spec (fun x hx => hget hx) hm
        exact fin ⟨hg.traits.wf, hg.validMember, hg.traits.finite, hn, hg.traits.values⟩ fun a b =>
          ⟨hs, hk fun x hx => ⟨a.member _ x hx (.inl rfl), hbig b hx⟩⟩
      split at h
      · rename_i he; subst he
        obtain ⟨m, hm, h⟩ := bindE_eq_ok h
        obtain ⟨m', hm', h⟩ := bindE_eq_ok h
        cases h
        cases listFrom_eq hm'
        obtain ⟨hn, hg, hk⟩ := member_spec (fun x hx => hget hx) hm
        exact fin ⟨hg.traits.wf, hg.validMember, hg.traits.finite, hn, hg.traits.values⟩ fun a b =>
          ⟨hs, hk fun x hx => ⟨a.member _ x hx (.inl rfl), hbig b hx⟩⟩
      split at h
      · rename_i he; subst he
        obtain ⟨m, hm, h⟩ := bindE_eq_ok h
        obtain ⟨m', hm', h⟩ := bindE_eq_ok h
        cases h
        obtain ⟨hn, hg, hk⟩ := member_spec (fun x hx => hget hx) hm
        obtain ⟨hn', hg', hk'⟩ := member_spec (fun x hx => hget hx) hm'
        exact fin ⟨⟨hg.traits.wf, hg'.traits.wf⟩, ⟨hg.validMember, hg'.validMember⟩, ⟨hg.traits.finite, hg'.traits.finite⟩, ⟨hn, hg.traits.values⟩, hn', hg'.traits.values⟩ fun a b =>
          ⟨hs, hk fun x hx => ⟨a.member _ x hx (.inr (.inl rfl)), hbig b hx⟩, hk' fun x hx => ⟨a.member _ x hx (.inr (.inr rfl)), hbig b hx⟩⟩
      split at h
      · rename_i he; subst he
        obtain ⟨m, hm, h⟩ := bindE_eq_ok h
        cases h
        obtain ⟨hw, hg, hk⟩ := members_spec (fun x hx => hget hx) hm
        exact fin ⟨wfMembers_of hw hg, fun k m h => ⟨(hg k m h).2.1, (hg k m h).2.2.validMember⟩, fun k m h => (hg k m h).2.2.traits.finite,
          fun k m h => (hg k m h).2.2.traits.values⟩
          fun a b => ⟨hs, hk a.members (fun o k x h1 h2 => a.each o k x h1 h2) fun x hx => hbig b hx⟩
      split at h
      · rename_i he; subst he
        obtain ⟨m, hm, h⟩ := bindE_eq_ok h
        cases h
        obtain ⟨hw, hg, hk⟩ := members_spec (fun x hx => hget hx) hm
        exact fin ⟨wfMembers_of hw hg, fun k m h => ⟨(hg k m h).2.1, (hg k m h).2.2.validMember⟩, fun k m h => (hg k m h).2.2.traits.finite,
          fun k m h => (hg k m h).2.2.traits.values⟩
          fun a b => ⟨hs, hk a.members (fun o k x h1 h2 => a.each o k x h1 h2) fun x hx => hbig b hx⟩
      split at h
      · rename_i he; subst he
        unfold JsonReader.service at h
        split at h
        · rename_i v hv
          obtain ⟨sv, h1, h⟩ := bindE_eq_ok h
          obtain ⟨ops, h2, h⟩ := bindE_eq_ok h
          obtain ⟨res, h3, h⟩ := bindE_eq_ok h
          obtain ⟨ren, h4, h⟩ := bindE_eq_ok h
          cases h
          have hne : v ≠ [] ∧ sv = ⟨v, [], [], []⟩ := by
            unfold Service.new at h1
            split at h1
            · cases h1
            · rename_i hne; cases h1; exact ⟨fun h => hne (by rw [h]; rfl), rfl⟩
          obtain ⟨hne, rfl⟩ := hne
          obtain ⟨h2a, h2b⟩ := targetList_spec (fun x hx => hget hx) h2
          obtain ⟨h3a, h3b⟩ := targetList_spec (fun x hx => hget hx) h3
          obtain ⟨h4a, h4b, h4c⟩ := renamesHash_spec (fun x hx => hget hx) h4
          simp only [arrayAppend_eq, List.nil_append]
          exact fin ⟨h4a, ⟨hne, h2a, h3a, h4b⟩, trivial, trivial⟩ fun _ _ => ⟨hs, hv, h2b, h3b, h4c⟩
        · cases h
      split at h
      · rename_i he; subst he
        unfold JsonReader.operation at h
        obtain ⟨i, h1, h⟩ := bindE_eq_ok h
        obtain ⟨out, h2, h⟩ := bindE_eq_ok h
        obtain ⟨ers, h3, h⟩ := bindE_eq_ok h
        cases h
        obtain ⟨h1a, h1b⟩ := optionalTarget_spec (fun x hx => hget hx) h1
        obtain ⟨h2a, h2b⟩ := optionalTarget_spec (fun x hx => hget hx) h2
        obtain ⟨h3a, h3b⟩ := targetList_spec (fun x hx => hget hx) h3
        simp only [arrayAppend_eq, List.nil_append]
        exact fin ⟨trivial, ⟨h1a, h2a, h3a⟩, trivial, trivial⟩ fun _ _ => ⟨hs, h1b, h2b, h3b⟩
      split at h
      · rename_i he; subst he
        unfold JsonReader.resource at h
        obtain ⟨ids, h0, h⟩ := bindE_eq_ok h
        obtain ⟨c, h1, h⟩ := bindE_eq_ok h
        obtain ⟨p, h2, h⟩ := bindE_eq_ok h
        obtain ⟨r, h3, h⟩ := bindE_eq_ok h
        obtain ⟨u, h4, h⟩ := bindE_eq_ok h
        obtain ⟨d, h5, h⟩ := bindE_eq_ok h
        obtain ⟨l, h6, h⟩ := bindE_eq_ok h
        obtain ⟨ops, h7, h⟩ := bindE_eq_ok h
        obtain ⟨cops, h8, h⟩ := bindE_eq_ok h
        obtain ⟨res, h9, h⟩ := bindE_eq_ok h
        cases h
        obtain ⟨h0a, h0b, h0c⟩ := identifiersHash_spec (fun x hx => hget hx) h0
        obtain ⟨h1a, h1b⟩ := optionalTarget_spec (fun x hx => hget hx) h1
        obtain ⟨h2a, h2b⟩ := optionalTarget_spec (fun x hx => hget hx) h2
        obtain ⟨h3a, h3b⟩ := optionalTarget_spec (fun x hx => hget hx) h3
        obtain ⟨h4a, h4b⟩ := optionalTarget_spec (fun x hx => hget hx) h4
        obtain ⟨h5a, h5b⟩ := optionalTarget_spec (fun x hx => hget hx) h5
        obtain ⟨h6a, h6b⟩ := optionalTarget_spec (fun x hx => hget hx) h6
        obtain ⟨h7a, h7b⟩ := targetList_spec (fun x hx => hget hx) h7
        obtain ⟨h8a, h8b⟩ := targetList_spec (fun x hx => hget hx) h8
        obtain ⟨h9a, h9b⟩ := targetList_spec (fun x hx => hget hx) h9
        simp only [arrayAppend_eq, List.nil_append]
        refine fin ⟨h0a, ⟨h0b, ?_, h7a, h8a, h9a⟩, trivial, trivial⟩ fun _ _ => ⟨hs, h0c, h1b, h2b, h3b, h4b, h5b, h6b, h7b, h8b, h9b⟩
        intro lc id hid
        cases lc
        · exact h1a id hid
        · exact h2a id hid
        · exact h3a id hid
        · exact h4a id hid
        · exact h5a id hid
        · exact h6a id hid
      cases h
  · cases h

/-! ### Shapes -/

structure GoodShape (s : TopLevelShape) : Prop where
  id : s.id.Valid
  wf : WfShape s
  traits : ValidTraits s.traits
  kind : ValidKind s.body
  finTraits : TraitsAll (fun v => ¬ NonFinite v) s.traits
  finKind : KindAll (fun v => ¬ NonFinite v) s.body
  stays : TraitsHaveValues s.traits ∧ KindRoundTrips s.body

theorem shapeEntry_spec {e : Str × Json} {y : ShapeID × TopLevelShape} (hj : WfJson e.2) (h : JsonReader.shapeEntry e = .ok y) :
    y.1.display = e.1 ∧ y.2.id = y.1 ∧ GoodShape y.2 ∧ (StrictShape e.2 → ¬ HasBigInt e.2 → ShapeOf y.2 e.2) := by
  unfold JsonReader.shapeEntry at h
  cases h1 : ShapeID.fromStr e.1 with
  | error er => simp [h1] at h
  | ok id =>
    cases h2 : JsonReader.shape e.2 with
    | error er => simp [h1, h2] at h
    | ok body =>
      cases h3 : JsonReader.readTraits (e.2.get %s"traits") with
      | error er => simp [h1, h2, h3] at h
      | ok ts =>
        simp [h1, h2, h3] at h; subst h
        obtain ⟨hv, hd⟩ := ShapeID.of_fromStr h1
        obtain ⟨hg, hk⟩ := shape_spec hj h2
        obtain ⟨ht, hto⟩ := readTraits_spec (fun x hx => hj.get hx) h3
        refine ⟨hd, rfl, ⟨hv, ⟨ht.wf, hg.wf⟩, ht.valid, hg.valid, ht.finite, hg.finite, ht.values, hg.stays⟩, fun a b => ?_⟩
        obtain ⟨o, ho, hwo, hko⟩ := hk a b
        rw [ho] at hto a b ⊢
        exact ⟨o, rfl, hwo, hto a.traits fun x hx hb => b (HasBigInt.get hx hb), hko⟩

/-! ### Models -/

theorem addAllShapes_member {m m' : Model} {l : List (ShapeID × TopLevelShape)} (h : m.addAllShapes l = (m', .ok ())) :
    ∀ e ∈ l, e.2.id.isMember = true → e.2.body.isUnresolved = true := by
  induction l generalizing m with
  | nil => simp
  | cons e l ih =>
    obtain ⟨k, s⟩ := e
    simp only [Model.addAllShapes] at h
    cases ha : m.addShape s with
    | mk m1 r =>
      cases r with
      | error e => simp [ha] at h
      | ok u =>
        simp only [ha] at h
        intro e he
        rcases List.mem_cons.mp he with rfl | he
        · intro hm
          unfold Model.addShape at ha
          cases hu : s.body.isUnresolved with
          | true => rfl
          | false => rw [if_pos (by simp_all)] at ha; cases ha
        · exact ih h e he

/-- The parts of a successful read. -/
theorem model_parts {j : Json} {m : Model} (hj : WfJson j) (h : JsonReader.model j = .ok m) :
    ∃ o : AMap Str Json, j = .object o ∧ AMap.Wf o ∧ (∃ s, AMap.get o %s"smithy" = some (.string s) ∧ Version.fromStr s = .ok m.version) ∧
      AMap.Wf m.metadata ∧ (∀ k v, m.metadata.get k = some v → v.Wf ∧ ¬ NonFinite v) ∧
      AMap.Wf m.shapes ∧ (∀ id s, m.shape id = some s → s.id = id ∧ GoodShape s) ∧
      (∀ id s, m.shape id = some s → id.isMember = true → s.body = .unresolved) ∧
      (ObjectOrAbsent (AMap.get o %s"metadata") → ¬ HasBigInt j → MaybeObj (fun k => k) JsonOf m.metadata (AMap.get o %s"metadata")) ∧
      (ObjectOrAbsent (AMap.get o %s"shapes") → (∀ ss k x, AMap.get o %s"shapes" = some (.object ss) → AMap.get ss k = some x → StrictShape x) →
        ¬ HasBigInt j → MaybeObj ShapeID.display ShapeOf m.shapes (AMap.get o %s"shapes")) := by
  unfold JsonReader.model at h
  split at h
  rotate_left
  · cases h
  rename_i o
  have hget : ∀ {k x}, AMap.get o k = some x → WfJson x := fun hx => WfJson.get (j := .object o) hj hx
  have hbig : ∀ {k x}, AMap.get o k = some x → HasBigInt x → HasBigInt (.object o) := fun hx h => HasBigInt.get (j := .object o) hx h
  have ho : AMap.Wf o := by cases hj; assumption
  refine ⟨o, rfl, ho, ?_⟩
  cases hv : JsonReader.version (AMap.get o %s"smithy") with
  | error e => simp [hv] at h
  | ok v =>
    simp only [hv] at h
    cases hmd : JsonReader.metadata (AMap.get o %s"metadata") with
    | error e => simp [hmd] at h
    | ok md =>
      simp only [hmd] at h
      have hmdw : AMap.Wf md ∧ (∀ k v, md.get k = some v → v.Wf ∧ ¬ NonFinite v) ∧
          (ObjectOrAbsent (AMap.get o %s"metadata") → ¬ HasBigInt (.object o) →
            MaybeObj (fun k => k) JsonOf md (AMap.get o %s"metadata")) := by
        unfold JsonReader.metadata at hmd
        split at hmd
        · rename_i vs hvs
          have hvo : JsonReader.value (.object vs) = .ok (.object md) := by
            simp only [JsonReader.value]
            cases hve : JsonReader.valueEntries vs with
            | error e => simp [hve] at hmd
            | ok l => simp only [hve] at hmd; cases hmd; rfl
          obtain ⟨h1, h2, h3⟩ := value_spec _ (hget hvs) _ hvo
          cases h1 with
          | object hw he =>
            refine ⟨hw, fun k v hk => ⟨he _ (AMap.mem_of_get hk), fun hn => h2 (.object (AMap.mem_of_get hk) hn)⟩, ?_⟩
            intro _ hb
            exact .inr ⟨_, hvs, jsonOf_objOf (h3 fun h => hb (hbig hvs h))⟩
        · rename_i hno
          cases hmd
          refine ⟨AMap.wf_nil, fun k v hk => by simp at hk, fun hs _ => ?_⟩
          cases hx : AMap.get o %s"metadata" with
          | none => exact .inl ⟨rfl, rfl⟩
          | some x =>
            rw [hx] at hs hno
            cases x with
            | object o' => exact absurd rfl (hno o')
            | _ => exact absurd hs (by simp [ObjectOrAbsent])
      obtain ⟨hw1, hw2, hw3⟩ := hmdw
      rw [Model.new, addAllMetadata_fresh v [] md [] (by simpa using hw1)] at h
      simp only [List.nil_append] at h
      cases hss : JsonReader.shapes (AMap.get o %s"shapes") with
      | error e => simp [hss] at h
      | ok ss =>
        simp only [hss] at h
        have hsw : AMap.Wf ss ∧ (∀ id s, AMap.get ss id = some s → s.id = id ∧ GoodShape s) ∧
            (ObjectOrAbsent (AMap.get o %s"shapes") → (∀ ss k x, AMap.get o %s"shapes" = some (.object ss) → AMap.get ss k = some x → StrictShape x) →
              ¬ HasBigInt (.object o) → MaybeObj ShapeID.display ShapeOf ss (AMap.get o %s"shapes")) := by
          unfold JsonReader.shapes at hss
          split at hss
          · rename_i vs hvs
            cases hget hvs with
            | object hvw he =>
              obtain ⟨hwl, hol⟩ := objOf_of_mapE (name := ShapeID.display)
                (R := fun s w => StrictShape w → ¬ HasBigInt w → ShapeOf s w) hvw hss
                fun e hm y hy => ⟨(shapeEntry_spec (he e hm) hy).1, (shapeEntry_spec (he e hm) hy).2.2.2⟩
              refine ⟨hwl, fun id s hid => ?_, fun _ hs hb => .inr ⟨_, hvs, ?_⟩⟩
              · obtain ⟨x, hx, hxy⟩ := ListRel.mem_right (mapE_iff.mp hss) (AMap.mem_of_get hid)
                obtain ⟨_, h1, h2, _⟩ := shapeEntry_spec (he x hx) hxy
                exact ⟨h1, h2⟩
              · obtain ⟨o', ho', _, h1, h2⟩ := hol
                cases ho'
                refine ⟨vs, rfl, hvw, fun k v hk => ?_, h2⟩
                obtain ⟨w, hw, hR⟩ := h1 k v hk
                exact ⟨w, hw, hR (hs _ _ _ hvs hw) fun h => hb (hbig hvs (.object (AMap.mem_of_get hw) h))⟩
          · rename_i hno
            cases hss
            refine ⟨AMap.wf_nil, fun k v hk => by simp at hk, fun hs _ _ => ?_⟩
            cases hx : AMap.get o %s"shapes" with
            | none => exact .inl ⟨rfl, rfl⟩
            | some x =>
              rw [hx] at hs hno
              cases x with
              | object o' => exact absurd rfl (hno o')
              | _ => exact absurd hs (by simp [ObjectOrAbsent])
        obtain ⟨hs1, hs2, hs3⟩ := hsw
        cases haa : (Model.mk v md []).addAllShapes ss with
        | mk m1 r =>
          cases r with
          | error e => simp [haa] at h
          | ok u =>
            simp only [haa] at h
            cases h
            have hkey : ∀ e ∈ ss, e.2.id = e.1 := fun e he => (hs2 e.1 e.2 (AMap.get_of_mem hs1 he)).1
            have hmem := addAllShapes_member haa
            rw [addAllShapes_fresh v md [] ss (by simpa using hs1) hkey
              fun e he hm => hmem e he (by rw [hkey e he]; exact hm)] at haa
            simp only [List.nil_append, Prod.mk.injEq] at haa
            obtain ⟨rfl, _⟩ := haa
            refine ⟨?_, hw1, hw2, hs1, hs2, ?_, hw3, hs3⟩
            · unfold JsonReader.version at hv
              split at hv
              · rename_i s hs; exact ⟨s, hs, hv⟩
              · cases hv
            · intro id s hid hm
              have h1 := (hs2 id s hid).1
              exact isUnresolved_iff.mp (hmem (id, s) (AMap.mem_of_get hid) (by rw [h1]; exact hm))

end Verif
