/-
Properties of `ModelBuilder::apply` (C44).
-/
import Verif.BuilderConflicts

namespace Verif
open Spec Mk

/-- The member builder with one more trait. -/
def withTrait (m : MemberBuilder) (t : TraitBuilder) : MemberBuilder := ⟨m.name, m.traits ++ [t], m.target⟩

/-- `body'` is `body` with the trait `t` added to the member named `k`: the member of a list or set, the key or value of a
map, the first member of that name in a structure or union. -/
inductive MemberApplied (k : Str) (t : TraitBuilder) : BuilderBody → BuilderBody → Prop
  | list {m} : k = %s"member" → MemberApplied k t (.list m) (.list (withTrait m t))
  | set {m} : k = %s"member" → MemberApplied k t (.set m) (.set (withTrait m t))
  | mapKey {a b} : k = %s"key" → MemberApplied k t (.map a b) (.map (withTrait a t) b)
  | mapValue {a b} : k = %s"value" → MemberApplied k t (.map a b) (.map a (withTrait b t))
  | struct {pre m post} : (∀ x ∈ pre, ¬ SameName x.name k) → SameName m.name k →
      MemberApplied k t (.struct (pre ++ m :: post)) (.struct (pre ++ withTrait m t :: post))
  | union {pre m post} : (∀ x ∈ pre, ¬ SameName x.name k) → SameName m.name k →
      MemberApplied k t (.union (pre ++ m :: post)) (.union (pre ++ withTrait m t :: post))

/-- The builder has a member named `k` to which a trait can be applied. -/
inductive HasMember (k : Str) : BuilderBody → Prop
  | list {m} : k = %s"member" → HasMember k (.list m)
  | set {m} : k = %s"member" → HasMember k (.set m)
  | mapKey {a b} : k = %s"key" → HasMember k (.map a b)
  | mapValue {a b} : k = %s"value" → HasMember k (.map a b)
  | struct {ms m} : m ∈ ms → SameName m.name k → HasMember k (.struct ms)
  | union {ms m} : m ∈ ms → SameName m.name k → HasMember k (.union ms)

theorem identEq_sameName (a b : Str) : identEq a b = true ↔ SameName a b := by simp [identEq, SameName]

theorem applyToFirst_some {k : Str} {t : TraitBuilder} {ms ms' : List MemberBuilder} (h : applyToFirst k t ms = some ms') :
    ∃ pre m post, ms = pre ++ m :: post ∧ ms' = pre ++ withTrait m t :: post ∧ (∀ x ∈ pre, ¬ SameName x.name k) ∧
      SameName m.name k := by
  induction ms generalizing ms' with
  | nil => cases h
  | cons m ms ih =>
    unfold applyToFirst at h
    split at h
    · next he => cases h; exact ⟨[], m, ms, rfl, rfl, by simp, (identEq_sameName _ _).mp he⟩
    · next he =>
      cases hr : applyToFirst k t ms with
      | none => rw [hr] at h; cases h
      | some ms1 =>
        rw [hr] at h; cases h
        obtain ⟨pre, x, post, rfl, rfl, h3, h4⟩ := ih hr
        refine ⟨m :: pre, x, post, rfl, rfl, ?_, h4⟩
        intro y hy
        rcases List.mem_cons.mp hy with rfl | hy
        · rw [identEq_sameName] at he; exact he
        · exact h3 y hy

theorem applyToFirst_none {k : Str} {t : TraitBuilder} {ms : List MemberBuilder} (h : applyToFirst k t ms = none) :
    ∀ m ∈ ms, ¬ SameName m.name k := by
  induction ms with
  | nil => intro m hm; cases hm
  | cons m ms ih =>
    unfold applyToFirst at h
    split at h
    · cases h
    · next he =>
      rw [identEq_sameName] at he
      simp only [Option.map_eq_none_iff] at h
      intro x hx
      rcases List.mem_cons.mp hx with rfl | hx
      · exact he
      · exact ih h x hx

theorem applyToMember_some {k : Str} {t : TraitBuilder} {b b' : BuilderBody} (h : b.applyToMember k t = some b') :
    MemberApplied k t b b' := by
  cases b with
  | list m => simp only [BuilderBody.applyToMember] at h; split at h <;> cases h; exact .list (by assumption)
  | set m => simp only [BuilderBody.applyToMember] at h; split at h <;> cases h; exact .set (by assumption)
  | map a c =>
    simp only [BuilderBody.applyToMember] at h
    split at h
    · cases h; exact .mapKey (by assumption)
    · split at h <;> cases h; exact .mapValue (by assumption)
  | struct ms =>
    simp only [BuilderBody.applyToMember] at h
    cases hr : applyToFirst k t ms with
    | none => rw [hr] at h; cases h
    | some ms1 =>
      rw [hr] at h; cases h
      obtain ⟨pre, x, post, rfl, rfl, h3, h4⟩ := applyToFirst_some hr
      exact .struct h3 h4
  | union ms =>
    simp only [BuilderBody.applyToMember] at h
    cases hr : applyToFirst k t ms with
    | none => rw [hr] at h; cases h
    | some ms1 =>
      rw [hr] at h; cases h
      obtain ⟨pre, x, post, rfl, rfl, h3, h4⟩ := applyToFirst_some hr
      exact .union h3 h4
  | _ => simp [BuilderBody.applyToMember] at h

theorem applyToMember_none {k : Str} {t : TraitBuilder} {b : BuilderBody} (h : b.applyToMember k t = none) : ¬ HasMember k b := by
  intro hm
  cases hm with
  | list hk => subst hk; simp [BuilderBody.applyToMember, memberMember] at h
  | set hk => subst hk; simp [BuilderBody.applyToMember, memberMember] at h
  | mapKey hk => subst hk; simp [BuilderBody.applyToMember, memberKey] at h
  | mapValue hk =>
    subst hk
    simp only [BuilderBody.applyToMember, memberKey, memberValue] at h
    split at h
    · cases h
    · simp at h
  | struct hx hn =>
    simp only [BuilderBody.applyToMember, Option.map_eq_none_iff] at h
    exact applyToFirst_none h _ hx hn
  | union hx hn =>
    simp only [BuilderBody.applyToMember, Option.map_eq_none_iff] at h
    exact applyToFirst_none h _ hx hn

theorem MemberApplied.hasMember {k : Str} {t : TraitBuilder} {b b' : BuilderBody} (h : MemberApplied k t b b') : HasMember k b := by
  cases h with
  | list h => exact .list h
  | set h => exact .set h
  | mapKey h => exact .mapKey h
  | mapValue h => exact .mapValue h
  | struct _ h => exact .struct (by simp) h
  | union _ h => exact .union (by simp) h

/-- `mb'` is `mb` with the entry under `n` replaced by `b`. -/
structure EntryChanged (mb mb' : ModelBuilder) (n : ShapeName) (b : Builder) : Prop where
  version : mb'.version = mb.version
  defaultNs : mb'.defaultNs = mb.defaultNs
  metadata : mb'.metadata = mb.metadata
  entry : mb'.shapes.get n = some b
  others : ∀ n', n' ≠ n → mb'.shapes.get n' = mb.shapes.get n'

/-- C44: applying a trait to an absolute shape id always succeeds: the trait is added after those of the entry for that id,
or a new import with this trait is made. Nothing else changes. -/
theorem C44_apply_to_shape (mb : ModelBuilder) (id : ShapeID) (hid : id.member = none) (t : TraitBuilder) :
    ∃ mb' b, mb.applyTo (.qualified id) t = .ok mb' ∧ EntryChanged mb mb' (.qualified id) b ∧
      ((∃ old, mb.shapes.get (.qualified id) = some old ∧ b = ⟨old.name, old.traits ++ [t], old.body⟩) ∨
       (mb.shapes.get (.qualified id) = none ∧ b = ⟨.qualified id, [t], .reference⟩)) := by
  cases hg : mb.shapes.get (.qualified id) with
  | none =>
    refine ⟨mb.insert ⟨.qualified id, [t], .reference⟩, _, ?_, ⟨rfl, rfl, rfl, ?_, ?_⟩, .inr ⟨rfl, rfl⟩⟩
    · simp [ModelBuilder.applyTo, ModelBuilder.applyToQualified, hid, hg]
    · simp [ModelBuilder.insert]
    · intro n' hn; simp only [ModelBuilder.insert, AMap.get_insert]; rw [if_neg (fun h => hn h.symm)]
  | some old =>
    refine ⟨{ mb with shapes := AMap.insert mb.shapes (.qualified id) (old.applyTrait t) }, _, ?_, ⟨rfl, rfl, rfl, ?_, ?_⟩,
      .inl ⟨old, rfl, rfl⟩⟩
    · simp [ModelBuilder.applyTo, ModelBuilder.applyToQualified, hid, hg]
    · simp [Builder.applyTrait]
    · intro n' hn; simp only [AMap.get_insert]; rw [if_neg (fun h => hn h.symm)]

/-- C44: applying a trait to a member id succeeds exactly when there is an entry under the absolute id of the shape, with
that member; the trait is then added to that member, and nothing else changes. Otherwise it panics. -/
theorem C44_apply_to_member (mb : ModelBuilder) (id : ShapeID) (k : Str) (hid : id.member = some k) (t : TraitBuilder) :
    (∀ mb', mb.applyTo (.qualified id) t = .ok mb' →
      ∃ old body, mb.shapes.get (.qualified ⟨id.ns, id.name, none⟩) = some old ∧ MemberApplied k t old.body body ∧
        EntryChanged mb mb' (.qualified ⟨id.ns, id.name, none⟩) ⟨old.name, old.traits, body⟩) ∧
    ((∃ old, mb.shapes.get (.qualified ⟨id.ns, id.name, none⟩) = some old ∧ HasMember k old.body) →
      ∃ mb', mb.applyTo (.qualified id) t = .ok mb') ∧
    (∀ e, mb.applyTo (.qualified id) t = .error e → e = .panic) := by
  have hso : id.shapeOnly = ⟨id.ns, id.name, none⟩ := by simp [ShapeID.shapeOnly, ShapeID.isMember, hid]
  simp only [ModelBuilder.applyTo, ModelBuilder.applyToQualified, hid, hso]
  cases hg : mb.shapes.get (.qualified ⟨id.ns, id.name, none⟩) with
  | none =>
    refine ⟨fun _ h => (by cases h), ?_, fun e h => (by cases h; rfl)⟩
    rintro ⟨_, h, _⟩; cases h
  | some old =>
    simp only
    cases ha : old.body.applyToMember k t with
    | none =>
      refine ⟨fun _ h => (by cases h), ?_, fun e h => (by cases h; rfl)⟩
      rintro ⟨_, h, hm⟩; cases h
      exact absurd hm (applyToMember_none ha)
    | some body =>
      refine ⟨fun mb' h => ?_, fun _ => ⟨_, rfl⟩, fun e h => (by cases h)⟩
      cases h
      refine ⟨old, body, rfl, applyToMember_some ha, rfl, rfl, rfl, ?_, ?_⟩
      · simp [AMap.get_insert]
      · intro n' hn; simp only [AMap.get_insert]; rw [if_neg (fun h => hn h.symm)]

/-- C44 is violated: a trait cannot be applied to a member of a shape that was added under its local name: if there is no
entry under the absolute id, `apply` panics. The local form `Shape$member` always panics. -/
theorem C44_local_member_panics (mb : ModelBuilder) (t : TraitBuilder) :
    (∀ id k, id.member = some k → mb.shapes.get (.qualified ⟨id.ns, id.name, none⟩) = none →
      mb.applyTo (.qualified id) t = .error .panic) ∧
    (∀ s, '$' ∈ s → '#' ∉ s → mb.apply s t = .error .panic) := by
  constructor
  · intro id k hk hn
    have hso : id.shapeOnly = ⟨id.ns, id.name, none⟩ := by simp [ShapeID.shapeOnly, ShapeID.isMember, hk]
    simp only [ModelBuilder.applyTo, ModelBuilder.applyToQualified, hk, hso, hn]
  · intro s h1 h2
    unfold ModelBuilder.apply
    cases hs : ShapeName.fromStr s with
    | error e => rfl
    | ok n =>
      have hn := C24_name_syntax s
      cases n with
      | qualified id =>
        have := (hn.2.1 id).mp hs
        have h3 : '#' ∈ s := by
          rw [← (C03_display_parse s id this).1]; unfold ShapeID.display; cases id.member <;> simp
        exact absurd h3 h2
      | local' l =>
        have := ((hn.2.2.1 l).mp hs).2
        exact absurd h1 (identifier_not_mem this (by decide))

/-! ### The invariant is kept -/

theorem TraitsWf.append {ts : List TraitBuilder} (h : TraitsWf ts) {t : TraitBuilder} (ht : ∀ v, t.value = some v → v.Wf) :
    TraitsWf (ts ++ [t]) := by
  intro x v hx hv
  rcases List.mem_append.mp hx with hx | hx
  · exact h x v hx hv
  · simp at hx; subst hx; exact ht v hv

theorem MemberApplied.legal {k : Str} {t : TraitBuilder} {b b' : BuilderBody} (h : MemberApplied k t b b')
    (ht : ∀ v, t.value = some v → v.Wf) (hm : BodyMapsWf b) (hw : ∀ m ∈ memberBuilders b, TraitsWf m.traits) :
    BodyMapsWf b' ∧ (∀ m ∈ memberBuilders b', TraitsWf m.traits) ∧ (b' ≠ .reference) := by
  have key : ∀ m, TraitsWf m.traits → TraitsWf (withTrait m t).traits := fun m hm => hm.append ht
  cases h with
  | list => exact ⟨trivial, by simpa [memberBuilders] using key _ (hw _ (by simp [memberBuilders])), by simp⟩
  | set => exact ⟨trivial, by simpa [memberBuilders] using key _ (hw _ (by simp [memberBuilders])), by simp⟩
  | mapKey =>
    refine ⟨trivial, ?_, by simp⟩
    simp only [memberBuilders, List.mem_cons, List.not_mem_nil, or_false, forall_eq_or_imp, forall_eq] at hw ⊢
    exact ⟨key _ hw.1, hw.2⟩
  | mapValue =>
    refine ⟨trivial, ?_, by simp⟩
    simp only [memberBuilders, List.mem_cons, List.not_mem_nil, or_false, forall_eq_or_imp, forall_eq] at hw ⊢
    exact ⟨hw.1, key _ hw.2⟩
  | struct =>
    refine ⟨trivial, ?_, by simp⟩
    intro m hm
    simp only [memberBuilders, List.mem_append, List.mem_cons] at hw hm
    rcases hm with hm | rfl | hm
    · exact hw m (.inl hm)
    · exact key _ (hw _ (.inr (.inl rfl)))
    · exact hw m (.inr (.inr hm))
  | union =>
    refine ⟨trivial, ?_, by simp⟩
    intro m hm
    simp only [memberBuilders, List.mem_append, List.mem_cons] at hw hm
    rcases hm with hm | rfl | hm
    · exact hw m (.inl hm)
    · exact key _ (hw _ (.inr (.inl rfl)))
    · exact hw m (.inr (.inr hm))

theorem wf_of_entryChanged {mb mb' : ModelBuilder} {n : ShapeName} {b : Builder} (h : WfBuilder mb) (hw : AMap.Wf mb'.shapes)
    (hc : EntryChanged mb mb' n b) (hn : b.name = n) (hb : LegalBuilder b) : WfBuilder mb' := by
  refine WfBuilder.of_legal hw ?_ (hc.metadata ▸ h.metaNodup) (fun k v hv => h.metaValues k v (by rw [hc.metadata] at hv; exact hv)) ?_
  all_goals
    intro n' b' hb'
    by_cases hnn : n' = n
  · subst hnn; rw [hc.entry] at hb'; cases hb'; exact hn
  · rw [hc.others n' hnn] at hb'; exact h.key n' b' hb'
  · subst hnn; rw [hc.entry] at hb'; cases hb'; exact hb
  · rw [hc.others n' hnn] at hb'; exact WfBuilder.legal h hb'

theorem wf_applyToQualified {mb mb' : ModelBuilder} (h : WfBuilder mb) (id : ShapeID) {t : TraitBuilder}
    (ht : ∀ v, t.value = some v → v.Wf) (ha : mb.applyToQualified id t = .ok mb') : WfBuilder mb' := by
  have ha' : mb.applyTo (.qualified id) t = .ok mb' := ha
  have hwf : AMap.Wf mb'.shapes := by
    unfold ModelBuilder.applyToQualified at ha
    split at ha
    · split at ha
      · split at ha <;> cases ha; exact AMap.wf_insert h.nodup _ _
      · cases ha
    · split at ha <;> cases ha <;> exact AMap.wf_insert h.nodup _ _
  cases hm : id.member with
  | none =>
    obtain ⟨mb1, b, h1, hc, hb⟩ := C44_apply_to_shape mb id hm t
    rw [ha'] at h1; cases h1
    rcases hb with ⟨old, ho, rfl⟩ | ⟨_, rfl⟩
    · have hl := WfBuilder.legal h ho
      refine wf_of_entryChanged h hwf hc (show old.name = _ from h.key _ old ho) ⟨hl.reference, hl.maps, hl.traitValues.append ht, hl.memberTraitValues⟩
    · refine wf_of_entryChanged h hwf hc rfl ⟨fun _ => ⟨id, rfl⟩, trivial, ?_, fun m hm => (by cases hm)⟩
      intro x v hx hv
      simp at hx; subst hx; exact ht v hv
  | some k =>
    obtain ⟨old, body, ho, hap, hc⟩ := (C44_apply_to_member mb id k hm t).1 mb' ha'
    have hl := WfBuilder.legal h ho
    obtain ⟨h1, h2, h3⟩ := hap.legal ht hl.maps hl.memberTraitValues
    exact wf_of_entryChanged h hwf hc (show old.name = _ from h.key _ old ho) ⟨fun hr => absurd hr h3, h1, hl.traitValues, h2⟩

/-- C44: the builder invariant is kept by `apply`. -/
theorem C44_apply_wf (mb mb' : ModelBuilder) (h : WfBuilder mb) (s : Str) (t : TraitBuilder)
    (ht : ∀ v, t.value = some v → v.Wf) (ha : mb.apply s t = .ok mb') : WfBuilder mb' := by
  unfold ModelBuilder.apply at ha
  split at ha
  · cases ha
  · next n _ =>
    cases n with
    | qualified id => exact wf_applyToQualified h id ht ha
    | local' l =>
      simp only [ModelBuilder.applyTo] at ha
      split at ha
      · cases ha
      · next id new _ =>
        refine wf_applyToQualified ?_ id ht ha
        cases new with
        | false => exact h
        | true => exact wfBuilder_insert h ⟨fun _ => ⟨id, rfl⟩, trivial, fun _ _ hx => (by cases hx), fun _ hx => (by cases hx)⟩

/-! ### What becomes of the trait in the built model -/

/-- When exactly two elements of a list are related to elements satisfying `P`, there are exactly two such elements. -/
theorem listRel_filter_two {α β : Type} {R : α → β → Prop} {P : β → Bool} {l : List α} {m : List β} (h : ListRel R l m)
    (hnd : l.Nodup) {a b : α} (ha : a ∈ l) (hb : b ∈ l) (hab : a ≠ b) (h1 : ∀ y, R a y → P y = true)
    (h1' : ∀ y, R b y → P y = true) (h2 : ∀ x ∈ l, ∀ y, R x y → P y = true → x = a ∨ x = b) :
    ∃ x y, R a x ∧ R b y ∧ (m.filter P = [x, y] ∨ m.filter P = [y, x]) := by
  induction l generalizing m with
  | nil => cases ha
  | cons c l ih =>
    obtain ⟨z, m', rfl, hcz, hrest⟩ := listRel_cons_left h
    rw [List.nodup_cons] at hnd
    by_cases hca : c = a
    · subst hca
      have hb' : b ∈ l := (List.mem_cons.mp hb).resolve_left fun he => hab he.symm
      obtain ⟨y, hy, hf⟩ := listRel_filter_unique (P := P) hrest hnd.2 hb' h1' fun x hx y hxy hp =>
        (h2 x (by simp [hx]) y hxy hp).resolve_left fun he => hnd.1 (he ▸ hx)
      exact ⟨z, y, hcz, hy, .inl (by rw [List.filter_cons, h1 z hcz, hf]; rfl)⟩
    · by_cases hcb : c = b
      · subst hcb
        have ha' : a ∈ l := (List.mem_cons.mp ha).resolve_left hab
        obtain ⟨x, hx, hf⟩ := listRel_filter_unique (P := P) hrest hnd.2 ha' h1 fun w hw y hwy hp =>
          (h2 w (by simp [hw]) y hwy hp).resolve_right fun he => hnd.1 (he ▸ hw)
        exact ⟨x, z, hx, hcz, .inr (by rw [List.filter_cons, h1' z hcz, hf]; rfl)⟩
      · have ha' : a ∈ l := (List.mem_cons.mp ha).resolve_left fun he => hca he.symm
        have hb' : b ∈ l := (List.mem_cons.mp hb).resolve_left fun he => hcb he.symm
        obtain ⟨x, y, hx, hy, hf⟩ := ih hrest hnd.2 ha' hb' fun w hw => h2 w (by simp [hw])
        refine ⟨x, y, hx, hy, ?_⟩
        rw [List.filter_cons, if_neg]
        · exact hf
        · intro hp
          rcases h2 c (by simp) z hcz hp with he | he
          · exact hca he
          · exact hcb he

/-- No import names a member of a shape. -/
def NoMemberImports (mb : ModelBuilder) : Prop :=
  ∀ id b, mb.shapes.get (.qualified id) = some b → b.body = .reference → id.member = none

theorem traitTarget_not_member {mb : ModelBuilder} (h : NoMemberImports mb) {n : ShapeName} {id : ShapeID}
    (ht : TraitTarget mb n id) : id.isMember = false := by
  obtain ⟨new, ht⟩ := ht
  cases ht with
  | absolute hm => simp [ShapeID.isMember, hm]
  | imported hi _ =>
    obtain ⟨b, hb, hr, _⟩ := hi
    simp [ShapeID.isMember, h id b hb hr]
  | defined => rfl
  | «prelude» => rfl
  | unknown => rfl

/-- Merging trait maps without a common key succeeds, and is the union. -/
theorem appendTraits_disjoint {a b : Traits} (ha : WfTraits a) (hb : WfTraits b) (hm : ∀ id v, b.get id = some v → id.isMember = false)
    (hd : ∀ id v w, a.get id = some v → b.get id = some w → False) (id : ShapeID) (v : TraitValue) :
    (appendTraits a b).1.get id = some v ↔ a.get id = some v ∨ b.get id = some v := by
  have hok : (appendTraits a b).2 = .ok () :=
    (appendTraits_ok_iff ha hb).mpr ⟨hm, fun id o v ho hv => absurd hv fun hv => hd id o v ho hv⟩
  have := appendTraits_merge ha hb hok id
  cases ha' : AMap.get a id with
  | none =>
    cases hb' : AMap.get b id with
    | none => rw [ha', hb'] at this; generalize AMap.get (appendTraits a b).1 id = o at *; cases this; simp
    | some y => rw [ha', hb'] at this; generalize AMap.get (appendTraits a b).1 id = o at *; cases this; simp
  | some x =>
    cases hb' : AMap.get b id with
    | none => rw [ha', hb'] at this; generalize AMap.get (appendTraits a b).1 id = o at *; cases this; simp
    | some y => exact absurd hb' fun hb' => hd id x y ha' hb'

/-- C44: applying a trait to a shape defined under its local name has the intended effect on the built model: the shape
has the definition's body, the definition's traits and the applied trait, provided the definition does not already have
that trait and no other name differs only by case. -/
theorem C44_apply_to_definition (mb mb' : ModelBuilder) (h : WfBuilder mb) (hni : NoMemberImports mb) (l : Str) (b : Builder)
    (t : TraitBuilder) (ht : ∀ v, t.value = some v → v.Wf)
    (hb : mb.shapes.get (.local' l) = some b) (himp : ∀ id, ¬ Imports mb l id)
    (hq : mb.shapes.get (.qualified ⟨mb.defaultNs, l, none⟩) = none)
    (hcase : ∀ l' b', mb.shapes.get (.local' l') = some b' → SameName l' l → l' = l)
    (ha : mb.applyTo (.local' l) t = .ok mb')
    (hnew : ∀ x ∈ b.traits, ∀ i, TraitTarget mb' x.name i → ¬ TraitTarget mb' t.name i)
    (enum : List ShapeID → List ShapeID) (he : Enumerates enum) (m : Model) (hm : mb'.build enum = .ok m) :
    ∃ s, m.shape ⟨mb.defaultNs, l, none⟩ = some s ∧ BuildsBody mb' b.body s.body ∧
      ∀ i v, s.traits.get i = some v ↔ LastTrait mb' b.traits i v ∨ (TraitTarget mb' t.name i ∧ v = t.value) := by
  -- the builder after the application
  have hres : mb.resolveShapeName (.local' l) false = .ok (⟨mb.defaultNs, l, none⟩, false) :=
    (resolveShapeName_iff h _ _ _ _).mpr (.defined himp ⟨b, hb⟩)
  have ha' : mb.applyTo (.qualified ⟨mb.defaultNs, l, none⟩) t = .ok mb' := by
    simp only [ModelBuilder.applyTo, hres] at ha ⊢; exact ha
  generalize hidd : (⟨mb.defaultNs, l, none⟩ : ShapeID) = id at *
  have hidm : id.member = none := by subst hidd; rfl
  have hidn : id.name = l := by subst hidd; rfl
  have h' : WfBuilder mb' := wf_applyToQualified h id ht ha'
  obtain ⟨mb1, rb, h1, hc, hrb⟩ := C44_apply_to_shape mb id hidm t
  rw [ha'] at h1; cases h1
  have hrb' : rb = ⟨.qualified id, [t], .reference⟩ := by
    rcases hrb with ⟨old, ho, _⟩ | ⟨_, hr⟩
    · rw [hq] at ho; cases ho
    · exact hr
  have hb' : mb'.shapes.get (.local' l) = some b := by rw [hc.others _ (by simp)]; exact hb
  have hbk : b.name = .local' l := h.key _ _ hb
  have hbr : b.body ≠ .reference := by
    intro hr; obtain ⟨i, hi⟩ := h.reference _ _ hb hr; cases hi
  have himp' : ∀ n i, Imports mb' n i → i = id ∨ Imports mb n i := by
    rintro n i ⟨b2, hb2, hr2, hs2⟩
    by_cases hii : i = id
    · exact .inl hii
    · rw [hc.others _ (by simpa using hii)] at hb2
      exact .inr ⟨b2, hb2, hr2, hs2⟩
  have hni' : NoMemberImports mb' := by
    intro i b2 hb2 hr2
    by_cases hii : i = id
    · rw [hii]; exact hidm
    · rw [hc.others _ (by simpa using hii)] at hb2
      exact hni i b2 hb2 hr2
  have himpid : Imports mb' l id := ⟨rb, hc.entry, by rw [hrb'], by rw [hidn]; rfl⟩
  have hblocal : BuildsId mb' b id := by
    refine .inr ⟨hbr, false, ?_⟩
    rw [hbk]
    exact .imported himpid fun i hi => (himp' l i hi).resolve_right (himp i)
  have hrid : BuildsId mb' rb id := .inl ⟨by rw [hrb'], by rw [hrb']⟩
  -- the shapes made
  obtain ⟨ss, gs, g1, g2, g3, g4⟩ := build_parts h' he hm
  have hbval : b ∈ AMap.values mb'.shapes := (mem_values h').mpr (by rw [hbk]; exact hb')
  have hrval : rb ∈ AMap.values mb'.shapes := (mem_values h').mpr (by rw [show rb.name = .qualified id by rw [hrb']]; exact hc.entry)
  obtain ⟨x, y, hx, hy, hf⟩ := listRel_filter_two (P := fun s => decide (s.id = id)) g1 (values_nodup h') hbval hrval
    (fun he => hbr (by rw [he, hrb'])) (fun y hy => decide_eq_true (hy.id.unique h' hblocal))
    (fun y hy => decide_eq_true (hy.id.unique h' hrid)) (by
      intro c hcv z hz hp
      have hcid : BuildsId mb' c id := of_decide_eq_true hp ▸ hz.id
      have hcg := (mem_values h').mp hcv
      rcases hcid with ⟨hcr, hcn⟩ | ⟨hcr, new, hct⟩
      · right
        rw [hcn, hc.entry] at hcg; cases hcg; rfl
      · cases hcn : c.name with
        | qualified q =>
          rw [hcn] at hct hcg
          cases hct
          rw [hc.entry] at hcg; cases hcg
          exact absurd (by rw [hrb']) hcr
        | local' l' =>
          rw [hcn] at hct hcg
          have hcg0 : mb.shapes.get (.local' l') = some c := by rw [← hc.others _ (by simp)]; exact hcg
          left
          have hl : l' = l := by
            have hdl : DefinedLocally mb' l' := ⟨c, hcg⟩
            generalize hj : id = j at hct
            cases hct with
            | imported h1 _ =>
              obtain ⟨_, _, _, hsn⟩ := h1
              subst hj
              exact hcase l' c hcg0 (by rw [← hidn]; exact hsn.symm)
            | defined _ _ => rw [← hidn, hj]
            | «prelude» _ h2 _ => exact absurd hdl h2
            | unknown _ h2 _ => exact absurd hdl h2
          subst hl
          rw [hb] at hcg0; cases hcg0; rfl)
  have hxid : x.id = id := hx.id.unique h' hblocal
  have hyid : y.id = id := hy.id.unique h' hrid
  have hxd : x.body ≠ .unresolved := fun hu => hbr (hx.body.unresolved_iff.mp hu)
  have hyu : y.body = .unresolved := hy.body.unresolved_iff.mpr (by rw [hrb'])
  have hxw := hx.wf h' (by rw [hbk]; exact hb' : mb'.shapes.get b.name = some b)
  have hyw := hy.wf h' hc.entry
  have hxt := hx.traits.last
  have hyt : ∀ i v, y.traits.get i = some v ↔ TraitTarget mb' t.name i ∧ v = t.value := by
    intro i v
    rw [hy.traits.last, hrb']
    rw [show ([t] : List TraitBuilder) = [] ++ [t] from rfl, lastTrait_concat]
    constructor
    · rintro (⟨h1, h2⟩ | ⟨_, h2⟩)
      · exact ⟨h1, h2.symm⟩
      · exact absurd h2 lastTrait_nil
    · rintro ⟨h1, h2⟩; exact .inl ⟨h1, h2.symm⟩
  have hdisj : ∀ i v w, x.traits.get i = some v → y.traits.get i = some w → False := by
    intro i v w hv hw
    obtain ⟨pre, tb, post, he, htt, _, _⟩ := (hxt i v).mp hv
    exact hnew tb (by rw [he]; simp) i htt ((hyt i w).mp hw).1
  have hxm : ∀ i v, x.traits.get i = some v → i.isMember = false := by
    intro i v hv
    obtain ⟨pre, tb, post, he, htt, _, _⟩ := (hxt i v).mp hv
    exact traitTarget_not_member hni' htt
  have hym : ∀ i v, y.traits.get i = some v → i.isMember = false :=
    fun i v hv => traitTarget_not_member hni' ((hyt i v).mp hv).1
  have hux : x.body.isUnresolved = false := isUnresolved_false_iff.mpr hxd
  have huy : y.body.isUnresolved = true := isUnresolved_iff.mpr hyu
  have hadx : Admissible x := by
    intro hx'; rw [hxid, ShapeID.isMember, hidm] at hx'; cases hx'
  have hady : Admissible y := fun _ => hyu
  have hbare : ∀ s ∈ (gs.map fun id => TopLevelShape.new id .unresolved).filter (fun s => decide (s.id = id)),
      s.body = .unresolved ∧ s.traits = [] := by
    intro s hs
    obtain ⟨j, _, rfl⟩ := List.mem_map.mp (List.mem_filter.mp hs).1
    exact ⟨rfl, rfl⟩
  rw [addAllIgnoring_slot g4 id, List.filter_append, start_shape, List.foldl_append]
  rcases hf with hf | hf
  · rw [hf]
    refine ⟨⟨x.id, (appendTraits x.traits y.traits).1, x.body⟩, ?_, hx.body, fun i v => ?_⟩
    · simp only [List.foldl_cons, List.foldl_nil, slotStep_admissible hadx, slotStep_admissible hady]
      rw [slot_bare _ _ hbare]
      simp only [Model.reconcile, hux, huy, copyTraits_fst]
    · rw [appendTraits_disjoint hxw.traits hyw.traits hym hdisj, hxt, hyt]
  · rw [hf]
    refine ⟨⟨y.id, (appendTraits y.traits x.traits).1, x.body⟩, ?_, hx.body, fun i v => ?_⟩
    · simp only [List.foldl_cons, List.foldl_nil, slotStep_admissible hadx, slotStep_admissible hady]
      rw [slot_bare _ _ hbare]
      simp only [Model.reconcile, hux, huy, copyTraits_fst]
    · rw [appendTraits_disjoint hyw.traits hxw.traits hxm (fun i v w hv hw => hdisj i w v hw hv), hxt, hyt, or_comm]

/-! ### Side effects on name resolution -/

/-- C44 is violated: applying a trait to an absolute id that has no entry also makes the id an import, so that local names
equal to its name, up to case, now stand for it. -/
theorem C44_apply_changes_names (mb mb' : ModelBuilder) (id : ShapeID) (hid : id.member = none)
    (t : TraitBuilder) (hg : mb.shapes.get (.qualified id) = none) (ha : mb.applyTo (.qualified id) t = .ok mb') (l : Str)
    (hl : SameName id.name l) (hnone : ∀ i, ¬ Imports mb l i) (tr : Bool) : Resolves mb' tr (.local' l) id false := by
  obtain ⟨mb1, b, h1, hc, hb⟩ := C44_apply_to_shape mb id hid t
  rw [ha] at h1; cases h1
  have hb' : b.body = .reference := by
    rcases hb with ⟨old, ho, _⟩ | ⟨_, rfl⟩
    · rw [hg] at ho; cases ho
    · rfl
  refine .imported ⟨b, hc.entry, hb', hl⟩ ?_
  rintro i ⟨b2, hb2, hr2, hs2⟩
  apply Classical.byContradiction
  intro hne
  rw [hc.others _ (by simpa using hne)] at hb2
  exact hnone i ⟨b2, hb2, hr2, hs2⟩

/-- A structure with a member of type `String`. -/
def exApply : ModelBuilder :=
  ⟨.v10, %s"ex", [], [(.local' (%s"S"), ⟨.local' (%s"S"), [], .struct [⟨%s"a", [], .local' (%s"String")⟩]⟩)]⟩

/-- C44 is violated: after a trait is applied to `other#String`, the structure's member, of type `String`, is no longer a
prelude string. -/
theorem C44_target_changed :
    (∃ m, exApply.build enumFirst = .ok m ∧
      m.shape (sid (%s"S")) = some ⟨sid (%s"S"), [], .struct [(%s"a", ⟨%s"a", [], tid (%s"String")⟩)]⟩) ∧
    (∃ mb' m, exApply.apply (%s"other#String") ⟨.local' (%s"box"), none⟩ = .ok mb' ∧ mb'.build enumFirst = .ok m ∧
      m.shape (sid (%s"S")) = some ⟨sid (%s"S"), [], .struct [(%s"a", ⟨%s"a", [], ⟨%s"other", %s"String", none⟩⟩)]⟩) :=
  ⟨⟨_, rfl, rfl⟩, ⟨_, _, rfl, rfl, rfl⟩⟩

/-! ### Concrete cases meeting the hypotheses -/

/-- Applying `box` to the locally defined `S` of `exApply`. -/
example : ∃ mb' m, exApply.applyTo (.local' (%s"S")) ⟨.local' (%s"deprecated"), none⟩ = .ok mb' ∧
    mb'.build enumFirst = .ok m ∧ (m.shape (sid (%s"S"))).map (·.traits) = some [(tid (%s"deprecated"), none)] :=
  ⟨_, _, rfl, rfl, rfl⟩

example : exApply.applyTo (.qualified ⟨%s"ex", %s"S", some (%s"a")⟩) ⟨.local' (%s"required"), none⟩ = .error .panic := rfl

/-- A builder with an import, a structure whose members have an imported, an unknown and a prelude target, and a set. -/
def exB : ModelBuilder :=
  ((((⟨.v10, %s"ex", [], []⟩ : ModelBuilder).insert ⟨.qualified ⟨%s"other", %s"T", none⟩, [], .reference⟩).insert
    ⟨.local' (%s"S"), [⟨.local' (%s"box"), none⟩], .struct [⟨%s"a", [], .local' (%s"T")⟩, ⟨%s"b", [], .local' (%s"Missing")⟩,
      ⟨%s"c", [], .local' (%s"String")⟩]⟩).insert
    ⟨.local' (%s"L"), [], .set ⟨%s"member", [], .local' (%s"S")⟩⟩).metaData (%s"k") (.boolean true)

theorem legal_of_simple {b : Builder} (h1 : b.body = .reference → ∃ id, b.name = .qualified id) (h2 : BodyMapsWf b.body)
    (h3 : ∀ t ∈ b.traits, t.value = none) (h4 : ∀ m ∈ memberBuilders b.body, ∀ t ∈ m.traits, t.value = none) : LegalBuilder b :=
  ⟨h1, h2, fun t v ht hv => (by rw [h3 t ht] at hv; cases hv), fun m hm t v ht hv => (by rw [h4 m hm t ht] at hv; cases hv)⟩

theorem exB_wf : WfBuilder exB := by
  refine wfBuilder_metaData (wfBuilder_insert (wfBuilder_insert (wfBuilder_insert (wfBuilder_new _ _) ?_) ?_) ?_) _ .boolean
  · exact legal_of_simple (fun _ => ⟨_, rfl⟩) trivial (by simp) (by simp [memberBuilders])
  · exact legal_of_simple (fun h => (by cases h)) trivial (by simp) (by simp [memberBuilders])
  · exact legal_of_simple (fun h => (by cases h)) trivial (by simp) (by simp [memberBuilders])

/-- The import of `exB` is used, the unknown name is guessed, the prelude name is found; the set has become a list; the
model is not complete. -/
example : ∃ m, exB.build enumFirst = .ok m ∧ m.isComplete = false ∧
    (m.shape (sid (%s"S"))).map (·.body) = some (.struct [(%s"a", ⟨%s"a", [], ⟨%s"other", %s"T", none⟩⟩),
      (%s"b", ⟨%s"b", [], sid (%s"Missing")⟩), (%s"c", ⟨%s"c", [], tid (%s"String")⟩)]) ∧
    (m.shape (sid (%s"Missing"))).map (·.body) = some .unresolved ∧
    (m.shape (sid (%s"L"))).map (·.body) = some (.list ⟨%s"member", [], sid (%s"S")⟩) :=
  ⟨_, rfl, rfl, rfl, rfl, rfl⟩

example : NoMemberImports exB ∧ (∀ i, ¬ Imports exB (%s"S") i) ∧ exB.shapes.get (.qualified (sid (%s"S"))) = none := by
  have hg : ∀ i b, exB.shapes.get (.qualified i) = some b → i = ⟨%s"other", %s"T", none⟩ := by
    intro i b hb
    have := AMap.mem_of_get hb
    simp [exB, ModelBuilder.insert, ModelBuilder.metaData, AMap.insert] at this
    exact this.1
  refine ⟨fun i b hb _ => by rw [hg i b hb], ?_, rfl⟩
  rintro i ⟨b, hb, _, hs⟩
  rw [hg i b hb] at hs
  exact absurd hs (by unfold SameName; decide)

end Verif
