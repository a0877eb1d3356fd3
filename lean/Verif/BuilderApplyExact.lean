/-
C44 in full, on the builder: what applying a trait by a name does, for every text.
-/
import Verif.BuilderApply

namespace Verif
open Spec

/-- What the text stands for as the subject of an application: an absolute id, or what a relative name stands for; the flag tells
that nothing by that name is known. -/
inductive AppliesTo (mb : ModelBuilder) : Str → ShapeID → Bool → Prop
  | absolute {id : ShapeID} : id.Valid → AppliesTo mb id.display id false
  | name {l id new} : IsIdentifier l → Resolves mb false (.local' l) id new → AppliesTo mb l id new

/-- The builder after the trait has been applied to the id. -/
inductive Applied (mb : ModelBuilder) (t : TraitBuilder) : ShapeID → Bool → ModelBuilder → Prop
  /-- to the entry under the absolute id -/
  | shape {id old mb'} : id.member = none → mb.shapes.get (.qualified id) = some old →
      EntryChanged mb mb' (.qualified id) ⟨old.name, old.traits ++ [t], old.body⟩ → Applied mb t id false mb'
  /-- to a new import, when there is no such entry, or the name is not known (an entry there may be under the id is lost) -/
  | fresh {id new mb'} : id.member = none → new = true ∨ mb.shapes.get (.qualified id) = none →
      EntryChanged mb mb' (.qualified id) ⟨.qualified id, [t], .reference⟩ → Applied mb t id new mb'
  /-- to a member of the entry under the absolute id of the shape -/
  | member {id k old body mb'} : id.member = some k → mb.shapes.get (.qualified ⟨id.ns, id.name, none⟩) = some old →
      MemberApplied k t old.body body →
      EntryChanged mb mb' (.qualified ⟨id.ns, id.name, none⟩) ⟨old.name, old.traits, body⟩ → Applied mb t id false mb'

/-- There is something to apply a trait to. -/
def CanApply (mb : ModelBuilder) (id : ShapeID) : Prop :=
  id.member = none ∨ ∃ k old, id.member = some k ∧ mb.shapes.get (.qualified ⟨id.ns, id.name, none⟩) = some old ∧ HasMember k old.body

theorem appliesTo_qualified (mb : ModelBuilder) (id : ShapeID) (t : TraitBuilder) :
    (∀ mb', mb.applyToQualified id t = .ok mb' → Applied mb t id false mb') ∧
    (CanApply mb id → ∃ mb', mb.applyToQualified id t = .ok mb') ∧
    (∀ e, mb.applyToQualified id t = .error e → e = .panic) := by
  cases hm : id.member with
  | none =>
    obtain ⟨mb1, b, h1, hc, hb⟩ := C44_apply_to_shape mb id hm t
    change mb.applyToQualified id t = _ at h1
    refine ⟨fun mb' ha => ?_, fun _ => ⟨mb1, h1⟩, fun e he => by rw [h1] at he; cases he⟩
    rw [h1] at ha; cases ha
    rcases hb with ⟨old, ho, rfl⟩ | ⟨hn, rfl⟩
    · exact .shape hm ho hc
    · exact .fresh hm (.inr hn) hc
  | some k =>
    obtain ⟨h1, h2, h3⟩ := C44_apply_to_member mb id k hm t
    refine ⟨fun mb' ha => ?_, fun hc => ?_, h3⟩
    · obtain ⟨old, body, ho, hap, hc⟩ := h1 mb' ha
      exact .member hm ho hap hc
    · rcases hc with hc | ⟨k', old, hk, ho, hh⟩
      · rw [hm] at hc; cases hc
      · rw [hm] at hk; cases hk
        exact h2 ⟨old, ho, hh⟩

/-- C44: what applying a trait by a name does to a builder, for every text. It fails only by a panic, which it does exactly when the
text is no name, or stands for no single id, or there is no entry with that member under the absolute id. -/
theorem C44_apply (mb : ModelBuilder) (h : WfBuilder mb) (s : Str) (t : TraitBuilder) :
    (∀ mb', mb.apply s t = .ok mb' → ∃ id new, AppliesTo mb s id new ∧ Applied mb t id new mb') ∧
    ((∃ mb', mb.apply s t = .ok mb') ↔ ∃ id new, AppliesTo mb s id new ∧ CanApply mb id) ∧
    (∀ e, mb.apply s t = .error e → e = .panic) := by
  have hcan : ∀ {id new mb'}, Applied mb t id new mb' → CanApply mb id := by
    intro id new mb' ha
    cases ha with
    | shape h1 => exact .inl h1
    | fresh h1 => exact .inl h1
    | member h1 h2 h3 => exact .inr ⟨_, _, h1, h2, h3.hasMember⟩
  obtain ⟨_, hn1, hn2, hn3⟩ := C24_name_syntax s
  have hfwd : ∀ mb', mb.apply s t = .ok mb' → ∃ id new, AppliesTo mb s id new ∧ Applied mb t id new mb' := by
    intro mb' ha
    unfold ModelBuilder.apply at ha
    cases hs : ShapeName.fromStr s with
    | error e => rw [hs] at ha; cases ha
    | ok n =>
      rw [hs] at ha
      cases n with
      | qualified id =>
        obtain ⟨hd, hv⟩ := C03_display_parse s id ((hn1 id).mp hs)
        exact ⟨id, false, hd ▸ .absolute hv, (appliesTo_qualified mb id t).1 mb' ha⟩
      | local' l =>
        obtain ⟨rfl, hl⟩ := (hn2 l).mp hs
        simp only [ModelBuilder.applyTo] at ha
        cases hr : mb.resolveShapeName (.local' l) false with
        | error e => rw [hr] at ha; cases ha
        | ok p =>
          obtain ⟨id, new⟩ := p
          rw [hr] at ha
          have hres := (resolveShapeName_iff h false (.local' l) id new).mp hr
          refine ⟨id, new, .name hl hres, ?_⟩
          cases new with
          | false => exact (appliesTo_qualified mb id t).1 mb' ha
          | true =>
            have hm : id.member = none := by cases hres; rfl
            simp only [if_true] at ha
            have := (appliesTo_qualified _ id t).1 mb' ha
            have hg : (mb.insert ⟨.qualified id, [], .reference⟩).shapes.get (.qualified id) = some ⟨.qualified id, [], .reference⟩ := by
              simp [ModelBuilder.insert]
            cases this with
            | shape _ ho hc =>
              rw [hg] at ho; cases ho
              refine .fresh hm (.inl rfl) ⟨hc.version, hc.defaultNs, hc.metadata, hc.entry, fun n' hn' => ?_⟩
              rw [hc.others n' hn']
              simp only [ModelBuilder.insert, AMap.get_insert]
              rw [if_neg fun he => hn' he.symm]
            | fresh _ ho => rcases ho with ho | ho <;> first | cases ho | (rw [hg] at ho; cases ho)
            | member ho => rw [hm] at ho; cases ho
  refine ⟨hfwd, ⟨fun ⟨mb', ha⟩ => ?_, ?_⟩, ?_⟩
  · obtain ⟨id, new, h1, h2⟩ := hfwd mb' ha
    exact ⟨id, new, h1, hcan h2⟩
  · rintro ⟨id, new, h1, h2⟩
    unfold ModelBuilder.apply
    cases h1 with
    | absolute hv =>
      rw [(hn1 id).mpr (ShapeID.fromStr_display hv)]
      exact (appliesTo_qualified mb id t).2.1 h2
    | name hl hres =>
      rw [(hn2 s).mpr ⟨rfl, hl⟩]
      simp only [ModelBuilder.applyTo]
      rw [(resolveShapeName_iff h false (.local' s) id new).mpr hres]
      cases new with
      | false => exact (appliesTo_qualified mb id t).2.1 h2
      | true =>
        have hm : id.member = none := by cases hres; rfl
        exact (appliesTo_qualified _ id t).2.1 (.inl hm)
  · intro e he
    unfold ModelBuilder.apply at he
    cases hs : ShapeName.fromStr s with
    | error e => rw [hs] at he; cases he; rfl
    | ok n =>
      rw [hs] at he
      cases n with
      | qualified id => exact (appliesTo_qualified mb id t).2.2 e he
      | local' l =>
        simp only [ModelBuilder.applyTo] at he
        cases hr : mb.resolveShapeName (.local' l) false with
        | error e => rw [hr] at he; cases he; rfl
        | ok p =>
          obtain ⟨id, new⟩ := p
          rw [hr] at he
          exact (appliesTo_qualified _ id t).2.2 e he

/-- Applying a trait by a relative name that is not known loses a definition under the absolute id. -/
example : ∃ mb mb', WfBuilder mb ∧ mb.shapes.get (.qualified (sid %s"S")) = some ⟨.qualified (sid %s"S"), [], .struct []⟩ ∧
    mb.apply %s"S" ⟨.local' %s"box", none⟩ = .ok mb' ∧
    mb'.shapes.get (.qualified (sid %s"S")) = some ⟨.qualified (sid %s"S"), [⟨.local' %s"box", none⟩], .reference⟩ := by
  refine ⟨⟨.v10, (sid %s"S").ns, [], [(.qualified (sid %s"S"), ⟨.qualified (sid %s"S"), [], .struct []⟩)]⟩, _, ?_, rfl, rfl, rfl⟩
  refine WfBuilder.of_legal (by unfold AMap.Wf; decide) ?_ AMap.wf_nil (by simp) ?_
  all_goals
    intro n b hb
    rw [AMap.get_cons] at hb
    split at hb
  · rename_i hn; cases hb; exact hn
  · cases hb
  · cases hb
    exact ⟨fun hr => (by cases hr), trivial, fun _ _ hx => (by cases hx), fun _ hx => (by cases hx)⟩
  · cases hb

end Verif
