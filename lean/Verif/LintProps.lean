/-
Properties C37, C38, C47 and C48 (runners and linters).
-/
import Verif.ActionsProps

namespace Verif
open Spec

/-! ### C37 Runners -/

theorem runActionsFrom_failFast (acc : List Issue) (m : Model) (as : List Action) :
    runActionsFrom acc m true as = runActionsFrom acc m false as := by
  induction as generalizing acc with
  | nil => rfl
  | cons a rest ih =>
    simp only [runActionsFrom]
    cases h : a.act m a.state with
    | mk s r =>
      cases r with
      | error e => rfl
      | ok u => simp [a.stored, ih]

/-- C37, violation: `fail_fast` changes nothing at all, neither the result nor which actions run. -/
theorem C37_failFast_ignored (m : Model) (as : List Action) : runActions m true as = runActions m false as :=
  runActionsFrom_failFast [] m as

theorem runActionsFrom_runs (acc : List Issue) (m : Model) (as : List Action) :
    (∃ is, (runActionsFrom acc m false as).2 = .ok (acc ++ is) ∧ Runs m false as (.ok is)) ∨
    (∃ e, (runActionsFrom acc m false as).2 = .error e ∧ Runs m false as (.error e)) := by
  induction as generalizing acc with
  | nil => exact .inl ⟨[], by simp [runActionsFrom], .done⟩
  | cons a rest ih =>
    simp only [runActionsFrom]
    cases h : a.act m a.state with
    | mk s r =>
      cases r with
      | error e => exact .inr ⟨e, rfl, .failed h⟩
      | ok u =>
        simp only [Bool.false_and, Bool.false_eq_true, if_false]
        rcases ih (acc ++ a.issues s) with ⟨is, h1, h2⟩ | ⟨e, h1, h2⟩
        · exact .inl ⟨a.issues s ++ is, by rw [h1, List.append_assoc], .next h (by simp) h2⟩
        · exact .inr ⟨e, h1, .nextFailed h (by simp) h2⟩

theorem Spec.Runs.unique {m : Model} {ff : Bool} {as : List Action} {r r' : Except Err (List Issue)} (h : Runs m ff as r) (h' : Runs m ff as r') :
    r = r' := by
  induction h generalizing r' with
  | done => cases h'; rfl
  | failed h =>
    cases h' with
    | failed h2 => rw [h] at h2; injection h2 with _ h2; injection h2 with h2; rw [h2]
    | stop h2 => rw [h] at h2; cases h2
    | next h2 => rw [h] at h2; cases h2
    | nextFailed h2 => rw [h] at h2; cases h2
  | stop h hf hi =>
    cases h' with
    | failed h2 => rw [h] at h2; cases h2
    | stop h2 => rw [h] at h2; injection h2 with h2; rw [h2]
    | next h2 hn => rw [h] at h2; injection h2 with h2; exact absurd ⟨hf, h2 ▸ hi⟩ hn
    | nextFailed h2 hn => rw [h] at h2; injection h2 with h2; exact absurd ⟨hf, h2 ▸ hi⟩ hn
  | next h hn hr ih =>
    cases h' with
    | failed h2 => rw [h] at h2; cases h2
    | stop h2 hf hi => rw [h] at h2; injection h2 with h2; exact absurd ⟨hf, h2 ▸ hi⟩ hn
    | next h2 _ hr2 =>
      rw [h] at h2; injection h2 with h2
      have := ih hr2
      injection this with this
      rw [h2, this]
    | nextFailed h2 _ hr2 => have := ih hr2; cases this
  | nextFailed h hn hr ih =>
    cases h' with
    | failed h2 => rw [h] at h2; cases h2
    | stop h2 hf hi => rw [h] at h2; injection h2 with h2; exact absurd ⟨hf, h2 ▸ hi⟩ hn
    | next h2 _ hr2 => have := ih hr2; cases this
    | nextFailed h2 _ hr2 => exact ih hr2

/-- C37: without `fail_fast` the result is the documented one: the issues of all actions in order, or the first failure. -/
theorem C37_collects_in_order (m : Model) (as : List Action) (r : Except Err (List Issue)) :
    (runActions m false as).2 = r ↔ Runs m false as r := by
  rcases runActionsFrom_runs [] m as with ⟨is, h1, h2⟩ | ⟨e, h1, h2⟩
  · rw [runActions, h1]
    exact ⟨fun h => h ▸ h2, fun h => h2.unique h⟩
  · rw [runActions, h1]
    exact ⟨fun h => h ▸ h2, fun h => h2.unique h⟩

/-- C37: with `fail_fast`, the result is the documented one as long as only the last action reports errors. (In
all cases the result is that without `fail_fast`, by `C37_failFast_ignored`.) -/
theorem C37_failFast_last (m : Model) (as : List Action) (last : Action)
    (hok : ∀ a ∈ as, ∀ i ∈ a.issues (a.act m a.state).1, i.level ≠ .error) :
    Runs m true (as ++ [last]) (runActions m true (as ++ [last])).2 := by
  rw [C37_failFast_ignored]
  have h := (C37_collects_in_order m (as ++ [last]) _).mp rfl
  generalize (runActions m false (as ++ [last])).2 = r at h
  induction as generalizing r with
  | nil =>
    cases h with
    | failed h => exact .failed h
    | stop _ hf => cases hf
    | next h hn hr =>
      cases hr
      rename_i s
      by_cases hi : ∃ i ∈ last.issues s, i.level = .error
      · rw [List.append_nil]; exact .stop h rfl hi
      · exact .next h (fun hh => hi hh.2) .done
    | nextFailed h hn hr => cases hr
  | cons a rest ih =>
    have hno : ∀ s, a.act m a.state = (s, .ok ()) → ¬ (true = true ∧ ∃ i ∈ a.issues s, i.level = .error) := by
      rintro s hs ⟨-, i, hi, hl⟩
      exact hok a (by simp) i (by rw [hs]; exact hi) hl
    cases h with
    | failed h => exact .failed h
    | stop _ hf => cases hf
    | next h hn hr => exact .next h (hno _ h) (ih (fun b hb => hok b (by simp [hb])) _ hr)
    | nextFailed h hn hr => exact .nextFailed h (hno _ h) (ih (fun b hb => hok b (by simp [hb])) _ hr)

/-- C37, violation: `NoUnresolvedReferences` reports an error, and still `CorrectTypeReferences` is run and its issues
are returned. -/
theorem C37_failFast_violated : ∃ (m : Model) (as : List Action) (r : Except Err (List Issue)), WfModel m ∧
    Runs m true as r ∧ (runActions m true as).2 ≠ r := by
  let m : Model := ⟨.v10, [], exModel.shapes ++ [(sid %s"A", ⟨sid %s"A", [], .simple .string⟩)]⟩
  refine ⟨m, [noUnresolvedReferences, correctTypeReferences], .ok (unresolvedValidate m), ?_, ?_, ?_⟩
  · have hS : ∀ id s, m.shape id = some s → exModel.shape id = some s ∨ (id = sid %s"A" ∧ s = ⟨sid %s"A", [], .simple .string⟩) := by
      intro id s h
      have := AMap.mem_of_get h
      simp only [m, List.mem_append, List.mem_singleton] at this
      rcases this with h | h
      · exact .inl ((AMap.mem_iff_get exModel_wf.nodup _ _).mp h)
      · cases h; exact .inr ⟨rfl, rfl⟩
    refine ⟨AMap.wf_nil, by simp [m], by unfold AMap.Wf; decide, ?_, ?_, ?_⟩
    · intro id s h
      rcases hS id s h with h | ⟨rfl, rfl⟩
      · exact exModel_wf.key id s h
      · rfl
    · intro id s h
      rcases hS id s h with h | ⟨rfl, rfl⟩
      · exact exModel_wf.member id s h
      · intro hm; cases hm
    · intro id s h
      rcases hS id s h with h | ⟨rfl, rfl⟩
      · exact exModel_wf.shapes id s h
      · exact ⟨⟨AMap.wf_nil, by simp⟩, trivial⟩
  · exact Runs.stop (a := noUnresolvedReferences) (s := [] ++ unresolvedValidate m) rfl rfl
      ⟨_, List.mem_cons_self (l := []), rfl⟩
  · decide

/-- C37: after a run without failure every action's own list of issues is empty: nothing is reported twice by a later run. -/
theorem C37_drained (m : Model) (ff : Bool) (as : List Action) (is : List Issue) (h : (runActions m ff as).2 = .ok is) :
    (runActions m ff as).1.length = as.length ∧ ∀ a ∈ (runActions m ff as).1, a.issues a.state = [] := by
  have h0 : runActions m ff as = runActions m false as := by cases ff; rfl; exact C37_failFast_ignored m as
  rw [h0] at h ⊢
  clear h0
  suffices hs : ∀ acc, (runActionsFrom acc m false as).2 = .ok is → (runActionsFrom acc m false as).1.length = as.length ∧
      ∀ a ∈ (runActionsFrom acc m false as).1, a.issues a.state = [] from hs [] h
  clear h
  intro acc h
  induction as generalizing acc with
  | nil => simp [runActionsFrom]
  | cons a rest ih =>
    simp only [runActionsFrom] at h ⊢
    cases ha : a.act m a.state with
    | mk s r =>
      cases r with
      | error e => rw [ha] at h; cases h
      | ok u =>
        simp only [ha, Bool.false_and, Bool.false_eq_true, if_false] at h ⊢
        obtain ⟨h1, h2⟩ := ih _ h
        refine ⟨by simp [h1], fun b hb => ?_⟩
        rcases List.mem_cons.mp hb with rfl | hb
        · exact a.stored s []
        · exact h2 b hb

/-! ### C38 -/

/-- C38, for `NamingConventions`: every issue is informational. (All issues of `UnwelcomeTerms` are warnings,
`C38_terms_warn`.) -/
theorem C38_naming (h : Heck) (m : Model) : ∀ i ∈ Naming.check h m, i.level = .info := by
  have h1 : ∀ b id, ∀ i ∈ Naming.checkShapeName h b id, i.level = .info := by
    intro b id i hi; unfold Naming.checkShapeName at hi; split at hi <;> simp at hi; subst hi; rfl
  have h2 : ∀ id, ∀ i ∈ Naming.checkTraitName h id, i.level = .info := by
    intro id i hi; unfold Naming.checkTraitName at hi; split at hi <;> simp at hi; subst hi; rfl
  have h3 : ∀ p n, ∀ i ∈ Naming.checkMemberName h p n, i.level = .info := by
    intro p n i hi; unfold Naming.checkMemberName at hi; split at hi <;> simp at hi; subst hi; rfl
  have h4 : ∀ ts, ∀ i ∈ Naming.checkApplied h ts, i.level = .info := by
    intro ts i hi
    obtain ⟨t, -, hi⟩ := List.mem_flatMap.mp hi
    exact h2 t i hi
  have h5 : ∀ p mem, ∀ i ∈ Naming.checkMember h p mem, i.level = .info := by
    intro p mem i hi
    simp only [Naming.checkMember, List.mem_append] at hi
    rcases hi with (hi | hi) | hi
    · exact h3 _ _ i hi
    · exact h1 _ _ i hi
    · exact h4 _ i hi
  intro i hi
  obtain ⟨s, -, hi⟩ := List.mem_flatMap.mp hi
  simp only [Naming.checkShape, List.mem_append] at hi
  rcases hi with (hi | hi) | hi
  · split at hi
    · exact h2 _ i hi
    · exact h1 _ _ i hi
  · exact h4 _ i hi
  · split at hi
    · obtain ⟨mem, -, hi⟩ := List.mem_flatMap.mp hi; exact h5 _ _ i hi
    · obtain ⟨mem, -, hi⟩ := List.mem_flatMap.mp hi; exact h5 _ _ i hi
    · cases hi

/-! ### C47 NamingConventions -/

/-- The convention a name must follow: UpperCamelCase for shapes, lowerCamelCase for traits and members. -/
def convention (h : Heck) (upper : Bool) (n : Str) : Str := if upper then h.camel n else h.mixed n

namespace Naming

theorem mem_shapeName (h : Heck) (b : Bool) (id : ShapeID) (i : Issue) : i ∈ checkShapeName h b id ↔
    h.camel id.name ≠ id.name ∧ i = ⟨%s"NamingConventions", .info,
      (if b then %s"References to" else %s"Defined") ++ %s" shape names should conform to UpperCamelCase, i.e. " ++ h.camel id.name, some id⟩ := by
  unfold checkShapeName
  by_cases hc : h.camel id.name = id.name <;> simp [hc, label]

theorem mem_traitName (h : Heck) (id : ShapeID) (i : Issue) : i ∈ checkTraitName h id ↔
    h.mixed id.name ≠ id.name ∧ i = ⟨%s"NamingConventions", .info,
      %s"Trait names should conform to lowerCamelCase, i.e. " ++ h.mixed id.name, some id⟩ := by
  unfold checkTraitName
  by_cases hc : h.mixed id.name = id.name <;> simp [hc, label]

theorem mem_memberName (h : Heck) (p : ShapeID) (n : Str) (i : Issue) : i ∈ checkMemberName h p n ↔
    h.mixed n ≠ n ∧ i = ⟨%s"NamingConventions", .info,
      %s"Member names should conform to lowerCamelCase, i.e. " ++ h.mixed n, some p⟩ := by
  unfold checkMemberName
  by_cases hc : h.mixed n = n <;> simp [hc, label]

theorem mem_applied (h : Heck) (ts : Traits) (i : Issue) : i ∈ checkApplied h ts ↔
    ∃ t v, ts.get t = some v ∧ i ∈ checkTraitName h t := by
  rw [checkApplied, List.mem_flatMap]
  constructor
  · rintro ⟨t, ht, hi⟩
    obtain ⟨v, hv⟩ := Option.isSome_iff_exists.mp ((AMap.mem_keys_iff _ _).mp ht)
    exact ⟨t, v, hv, hi⟩
  · rintro ⟨t, v, hv, hi⟩
    exact ⟨t, (AMap.mem_keys_iff _ _).mpr (by simp [hv]), hi⟩

end Naming

open Naming in
/-- C47: an issue is reported exactly for the names that do not follow their convention: names of shapes (in
UpperCamelCase), names of trait shapes and applied traits, member names of structures and unions (in lowerCamelCase), and
names of the targets of such members (in UpperCamelCase); the message proposes the conforming name. -/
theorem C47_issues_iff (h : Heck) (m : Model) (hm : WfModel m) (i : Issue) : i ∈ Naming.check h m ↔
    ∃ name upper text locus, Named m name upper text locus ∧ convention h upper name ≠ name ∧
      i = ⟨%s"NamingConventions", .info, text ++ convention h upper name, some locus⟩ := by
  have htr : ∀ s : TopLevelShape, hasTrait s.traits ⟨%s"smithy.api", %s"trait", none⟩ = true ↔
      ∃ v, s.traits.get ⟨%s"smithy.api", %s"trait", none⟩ = some v := by
    intro s; simp [hasTrait, AMap.contains, Option.isSome_iff_exists]
  constructor
  · intro hi
    obtain ⟨s, hs, hi⟩ := List.mem_flatMap.mp hi
    have hg := (mem_shapesList hm _).mp hs
    simp only [Naming.checkShape, List.mem_append] at hi
    have happ : ∀ ts : Traits, (∀ t v, ts.get t = some v → Named m t.name false %s"Trait names should conform to lowerCamelCase, i.e. " t) →
        i ∈ checkApplied h ts → ∃ name upper text locus, Named m name upper text locus ∧ convention h upper name ≠ name ∧
      i = ⟨%s"NamingConventions", .info, text ++ convention h upper name, some locus⟩ := by
      intro ts hts hi
      obtain ⟨t, v, hv, hi⟩ := (mem_applied h _ i).mp hi
      obtain ⟨hc, rfl⟩ := (mem_traitName h t i).mp hi
      exact ⟨_, _, _, _, hts t v hv, hc, rfl⟩
    rcases hi with (hi | hi) | hi
    · split at hi
      · next ht =>
        obtain ⟨v, hv⟩ := (htr s).mp ht
        obtain ⟨hc, rfl⟩ := (mem_traitName h _ i).mp hi
        exact ⟨_, _, _, _, .traitShape hg hv, hc, rfl⟩
      · next ht =>
        obtain ⟨hc, rfl⟩ := (mem_shapeName h _ _ i).mp hi
        have hv : s.traits.get ⟨%s"smithy.api", %s"trait", none⟩ = none := by
          cases hv : s.traits.get ⟨%s"smithy.api", %s"trait", none⟩ with
          | none => rfl
          | some v => exact absurd ((htr s).mpr ⟨v, hv⟩) ht
        exact ⟨_, _, _, _, .shape hg hv, hc, rfl⟩
    · exact happ _ (fun t v hv => .applied hg hv) hi
    · have hmem : ∀ ms : AMap Str MemberShape, AMap.Wf ms → (s.body = .struct ms ∨ s.body = .union ms) →
          i ∈ (AMap.values ms).flatMap (Naming.checkMember h s.id) → ∃ name upper text locus, Named m name upper text locus ∧
            convention h upper name ≠ name ∧ i = ⟨%s"NamingConventions", .info, text ++ convention h upper name, some locus⟩ := by
        intro ms hw hb hi
        obtain ⟨mem, hmem, hi⟩ := List.mem_flatMap.mp hi
        obtain ⟨⟨n, mem'⟩, hin, rfl⟩ := List.mem_map.mp hmem
        have hget := (AMap.mem_iff_get hw _ _).mp hin
        simp only [Naming.checkMember, List.mem_append] at hi
        rcases hi with (hi | hi) | hi
        · obtain ⟨hc, rfl⟩ := (mem_memberName h _ _ i).mp hi
          exact ⟨_, _, _, _, .member hg hb hget, hc, rfl⟩
        · obtain ⟨hc, rfl⟩ := (mem_shapeName h _ _ i).mp hi
          exact ⟨_, _, _, _, .target hg hb hget, hc, rfl⟩
        · exact happ _ (fun t v hv => .memberTrait hg hb hget hv) hi
      have hws := (hm.shapes _ _ hg).2
      split at hi
      · next hb => rw [hb] at hws; exact hmem _ hws.nodup (.inl hb) hi
      · next hb => rw [hb] at hws; exact hmem _ hws.nodup (.inr hb) hi
      · cases hi
  · rintro ⟨name, upper, text, locus, hn, hc, rfl⟩
    have lift : ∀ s, m.shape s.id = some s → ∀ i, i ∈ Naming.checkShape h s → i ∈ Naming.check h m :=
      fun s hg i hi => List.mem_flatMap.mpr ⟨s, (mem_shapesList hm _).mpr hg, hi⟩
    have liftM : ∀ s (ms : AMap Str MemberShape) n mem, m.shape s.id = some s → (s.body = .struct ms ∨ s.body = .union ms) → ms.get n = some mem →
        ∀ i, i ∈ Naming.checkMember h s.id mem → i ∈ Naming.check h m := by
      intro s ms n mem hg hb hget i hi
      refine lift s hg i ?_
      have : i ∈ (AMap.values ms).flatMap (Naming.checkMember h s.id) :=
        List.mem_flatMap.mpr ⟨mem, List.mem_map.mpr ⟨(n, mem), AMap.mem_of_get hget, rfl⟩, hi⟩
      rcases hb with hb | hb <;> simp only [Naming.checkShape, hb, List.mem_append] <;> exact .inr this
    cases hn with
    | shape hg hv =>
      obtain rfl := hm.key _ _ hg
      rename_i s
      refine lift s hg _ ?_
      have hf : hasTrait s.traits ⟨%s"smithy.api", %s"trait", none⟩ = false := by simp [hasTrait, AMap.contains, hv]
      simp only [Naming.checkShape, hf, List.mem_append]
      exact .inl (.inl ((mem_shapeName h false _ _).mpr ⟨hc, rfl⟩))
    | traitShape hg hv =>
      obtain rfl := hm.key _ _ hg
      rename_i s v
      refine lift s hg _ ?_
      simp only [Naming.checkShape, (htr s).mpr ⟨v, hv⟩, List.mem_append]
      exact .inl (.inl ((mem_traitName h _ _).mpr ⟨hc, rfl⟩))
    | applied hg hv =>
      obtain rfl := hm.key _ _ hg
      refine lift _ hg _ ?_
      simp only [Naming.checkShape, List.mem_append]
      exact .inl (.inr ((mem_applied h _ _).mpr ⟨_, _, hv, (mem_traitName h _ _).mpr ⟨hc, rfl⟩⟩))
    | member hg hb hget =>
      obtain rfl := hm.key _ _ hg
      refine liftM _ _ _ _ hg hb hget _ ?_
      simp only [Naming.checkMember, List.mem_append]
      exact .inl (.inl ((mem_memberName h _ _ _).mpr ⟨hc, rfl⟩))
    | target hg hb hget =>
      obtain rfl := hm.key _ _ hg
      refine liftM _ _ _ _ hg hb hget _ ?_
      simp only [Naming.checkMember, List.mem_append]
      exact .inl (.inr ((mem_shapeName h true _ _).mpr ⟨hc, rfl⟩))
    | memberTrait hg hb hget hv =>
      obtain rfl := hm.key _ _ hg
      refine liftM _ _ _ _ hg hb hget _ ?_
      simp only [Naming.checkMember, List.mem_append]
      exact .inr ((mem_applied h _ _).mpr ⟨_, _, hv, (mem_traitName h _ _).mpr ⟨hc, rfl⟩⟩)

/-- With the member `BadName` an issue is reported: the hypotheses are met. -/
example (h : Heck) (hb : h.mixed %s"BadName" = %s"badName") : ∃ m, WfModel m ∧
    (⟨%s"NamingConventions", .info, %s"Member names should conform to lowerCamelCase, i.e. badName", some (sid %s"S")⟩ : Issue) ∈
      Naming.check h m := by
  refine ⟨⟨.v10, [], [(sid %s"S", exStruct %s"S" [(%s"BadName", sid %s"T")])]⟩, ?_, ?_⟩
  · refine wf_singleShape (exStruct %s"S" [(%s"BadName", sid %s"T")]) rfl ⟨⟨AMap.wf_nil, (by simp [exStruct])⟩, ?_⟩ [] AMap.wf_nil (by simp)
    refine ⟨by unfold AMap.Wf; decide, fun k m h => ?_, fun k m h => ?_⟩
    · obtain ⟨rfl, rfl⟩ := get_one h; rfl
    · obtain ⟨rfl, rfl⟩ := get_one h; exact ⟨AMap.wf_nil, by simp [MemberShape.new]⟩
  · have hne : h.mixed %s"BadName" ≠ %s"BadName" := by rw [hb]; decide
    refine List.mem_flatMap.mpr ⟨exStruct %s"S" [(%s"BadName", sid %s"T")], by simp [Model.shapesList, AMap.values], ?_⟩
    simp only [Naming.checkShape, List.mem_append]
    refine .inr (List.mem_flatMap.mpr ⟨MemberShape.new %s"BadName" (sid %s"T"), List.mem_cons_self, ?_⟩)
    simp only [Naming.checkMember, List.mem_append]
    exact .inl (.inl ((Naming.mem_memberName h _ _ _).mpr ⟨hne, by simp [MemberShape.new, hb, exStruct]⟩))

/-! ### C48 UnwelcomeTerms -/

namespace Terms

/-- What `check_identifier` is called with, in order. -/
def visitsId (id : ShapeID) : List (ShapeID × Str) := (identifiers id).map fun p => (id, p)

def visitsMember (parent : ShapeID) (m : MemberShape) : List (ShapeID × Str) :=
  (parent, m.id) :: (visitsId m.target ++ (AMap.keys m.traits).flatMap visitsId)

def visitsShape (s : TopLevelShape) : List (ShapeID × Str) :=
  visitsId s.id ++ (AMap.keys s.traits).flatMap visitsId ++
    (match s.body with
     | .struct ms => visitsId s.id ++ (AMap.values ms).flatMap (visitsMember s.id)
     | .union ms => visitsId s.id ++ (AMap.values ms).flatMap (visitsMember s.id)
     | _ => [])

def visits (m : Model) : List (ShapeID × Str) := m.shapesList.flatMap visitsShape

def step (h : Heck) (st : State) (e : ShapeID × Str) : State := checkIdentifier h e.1 st e.2

theorem checkShapeId_eq (h : Heck) (st : State) (id : ShapeID) : checkShapeId h st id = (visitsId id).foldl (step h) st := by
  rw [checkShapeId, visitsId, List.foldl_map]; rfl

theorem foldl_flatMap {α β σ : Type} (f : σ → α → σ) (g : σ → β → σ) (v : α → List β) (hv : ∀ s a, f s a = (v a).foldl g s)
    (l : List α) (s : σ) : l.foldl f s = (l.flatMap v).foldl g s := by
  induction l generalizing s with
  | nil => rfl
  | cons a l ih => rw [List.foldl_cons, List.flatMap_cons, List.foldl_append, ih, hv]

theorem checkMember_eq (h : Heck) (p : ShapeID) (st : State) (m : MemberShape) :
    checkMember h p st m = (visitsMember p m).foldl (step h) st := by
  rw [checkMember, foldl_flatMap _ (step h) visitsId (checkShapeId_eq h), checkShapeId_eq, visitsMember, List.foldl_cons,
    List.foldl_append]; rfl

theorem checkShape_eq (h : Heck) (st : State) (s : TopLevelShape) : checkShape h st s = (visitsShape s).foldl (step h) st := by
  unfold checkShape visitsShape
  simp only [foldl_flatMap _ (step h) visitsId (checkShapeId_eq h), checkShapeId_eq]
  cases s.body <;> simp [List.foldl_append, foldl_flatMap _ (step h) (visitsMember s.id) (checkMember_eq h s.id)]

theorem check_eq (h : Heck) (m : Model) (st : State) : check h m st = (visits m).foldl (step h) st :=
  foldl_flatMap _ (step h) visitsShape (checkShape_eq h) _ _

/-- The issues for an identifier. -/
def report (h : Heck) (e : ShapeID × Str) : List Issue :=
  ((splitWords h e.2).filter unwelcome.contains).map fun w => ⟨label, .warning, termMessage w, some e.1⟩

/-- The issues of a sequence of visits when the identifiers in `c` have been checked. -/
def reports (h : Heck) (c : List Str) : List (ShapeID × Str) → List Issue
  | [] => []
  | e :: l => if c.contains e.2 then reports h c l else report h e ++ reports h (e.2 :: c) l

theorem steps_issues (h : Heck) (l : List (ShapeID × Str)) (st : State) :
    (l.foldl (step h) st).issues = st.issues ++ reports h st.checked l := by
  induction l generalizing st with
  | nil => simp [reports]
  | cons e l ih =>
    rw [List.foldl_cons, ih, reports, step, checkIdentifier]
    split
    · rfl
    · rw [List.append_assoc]; rfl

theorem steps_checked (h : Heck) (l : List (ShapeID × Str)) (st : State) (p : Str) :
    p ∈ (l.foldl (step h) st).checked ↔ p ∈ st.checked ∨ ∃ e ∈ l, e.2 = p := by
  induction l generalizing st with
  | nil => simp
  | cons e l ih =>
    rw [List.foldl_cons, ih, step, checkIdentifier]
    split
    · next hc =>
      have hc : e.2 ∈ st.checked := by simpa using hc
      constructor
      · rintro (h | ⟨x, hx, rfl⟩)
        · exact .inl h
        · exact .inr ⟨x, by simp [hx], rfl⟩
      · rintro (h | ⟨x, hx, rfl⟩)
        · exact .inl h
        · rcases List.mem_cons.mp hx with rfl | hx
          · exact .inl hc
          · exact .inr ⟨x, hx, rfl⟩
    · simp only [List.mem_cons]
      constructor
      · rintro ((rfl | h) | ⟨x, hx, rfl⟩)
        · exact .inr ⟨e, .inl rfl, rfl⟩
        · exact .inl h
        · exact .inr ⟨x, .inr hx, rfl⟩
      · rintro (h | ⟨x, rfl | hx, rfl⟩)
        · exact .inl (.inr h)
        · exact .inl (.inl rfl)
        · exact .inr ⟨x, hx, rfl⟩

theorem steps_id (h : Heck) (l : List (ShapeID × Str)) (st : State) (hl : ∀ e ∈ l, e.2 ∈ st.checked) : l.foldl (step h) st = st := by
  induction l with
  | nil => rfl
  | cons e l ih =>
    have h1 : step h st e = st := by
      have := hl e (by simp)
      simp [step, checkIdentifier, this]
    rw [List.foldl_cons, h1, ih fun x hx => hl x (by simp [hx])]

theorem reports_message (h : Heck) (l : List (ShapeID × Str)) (c : List Str) (msg : Str) :
    (∃ i ∈ reports h c l, i.message = msg) ↔
      ∃ e ∈ l, e.2 ∉ c ∧ ∃ w ∈ splitWords h e.2, unwelcome.contains w = true ∧ msg = termMessage w := by
  have hrep : ∀ e, (∃ i ∈ report h e, i.message = msg) ↔ ∃ w ∈ splitWords h e.2, unwelcome.contains w = true ∧ msg = termMessage w := by
    intro e
    simp only [report, List.mem_map, List.mem_filter]
    constructor
    · rintro ⟨i, ⟨w, ⟨hw, hu⟩, rfl⟩, rfl⟩; exact ⟨w, hw, hu, rfl⟩
    · rintro ⟨w, hw, hu, rfl⟩; exact ⟨_, ⟨w, ⟨hw, hu⟩, rfl⟩, rfl⟩
  induction l generalizing c with
  | nil => simp [reports]
  | cons e l ih =>
    rw [reports]
    split
    · next hc =>
      have hc : e.2 ∈ c := by simpa using hc
      refine (ih c).trans ?_
      constructor
      · rintro ⟨x, hx, h⟩; exact ⟨x, by simp [hx], h⟩
      · rintro ⟨x, hx, hn, h⟩
        rcases List.mem_cons.mp hx with rfl | hx
        · exact absurd hc hn
        · exact ⟨x, hx, hn, h⟩
    · next hc =>
      have hc : e.2 ∉ c := by simpa using hc
      constructor
      · rintro ⟨i, hi, hm⟩
        rcases List.mem_append.mp hi with hi | hi
        · exact ⟨e, by simp, hc, (hrep e).mp ⟨i, hi, hm⟩⟩
        · obtain ⟨x, hx, hn, h⟩ := (ih _).mp ⟨i, hi, hm⟩
          exact ⟨x, by simp [hx], fun h => hn (by simp [h]), h⟩
      · rintro ⟨x, hx, hn, hw⟩
        by_cases he : x.2 = e.2
        · obtain ⟨i, hi, hm⟩ := (hrep e).mpr (by rw [← he]; exact hw)
          exact ⟨i, by simp [hi], hm⟩
        · rcases List.mem_cons.mp hx with rfl | hx
          · exact absurd rfl he
          · obtain ⟨i, hi, hm⟩ := (ih (e.2 :: c)).mpr ⟨x, hx, by simp [he, hn], hw⟩
            exact ⟨i, by simp [hi], hm⟩

theorem mem_identifiers {id : ShapeID} {p : Str} : p ∈ identifiers id ↔ PartOf id p := by
  simp only [identifiers, List.mem_append, List.mem_singleton, Option.mem_toList]
  constructor
  · rintro ((h | rfl) | h)
    · exact .ns h
    · exact .name
    · exact .member h
  · rintro (h | - | h)
    · exact .inl (.inl h)
    · exact .inl (.inr rfl)
    · exact .inr h

theorem mem_visitsId {id : ShapeID} {p : Str} : (∃ e ∈ visitsId id, e.2 = p) ↔ PartOf id p := by
  rw [← mem_identifiers]
  simp only [visitsId, List.mem_map]
  constructor
  · rintro ⟨e, ⟨q, hq, rfl⟩, rfl⟩; exact hq
  · intro h; exact ⟨_, ⟨p, h, rfl⟩, rfl⟩

theorem mem_keysVisits {ts : Traits} {p : Str} : (∃ e ∈ (AMap.keys ts).flatMap visitsId, e.2 = p) ↔
    ∃ t v, ts.get t = some v ∧ PartOf t p := by
  constructor
  · rintro ⟨e, he, rfl⟩
    obtain ⟨t, ht, he⟩ := List.mem_flatMap.mp he
    obtain ⟨v, hv⟩ := Option.isSome_iff_exists.mp ((AMap.mem_keys_iff _ _).mp ht)
    exact ⟨t, v, hv, mem_visitsId.mp ⟨e, he, rfl⟩⟩
  · rintro ⟨t, v, hv, hp⟩
    obtain ⟨e, he, rfl⟩ := mem_visitsId.mpr hp
    exact ⟨e, List.mem_flatMap.mpr ⟨t, (AMap.mem_keys_iff _ _).mpr (by simp [hv]), he⟩, rfl⟩

theorem mem_visitsMember {id : ShapeID} {m : MemberShape} {p : Str} : (∃ e ∈ visitsMember id m, e.2 = p) ↔
    p = m.id ∨ PartOf m.target p ∨ ∃ t v, m.traits.get t = some v ∧ PartOf t p := by
  rw [← mem_visitsId, ← mem_keysVisits]
  simp only [visitsMember, List.mem_cons, List.mem_append]
  constructor
  · rintro ⟨e, rfl | h | h, rfl⟩
    · exact .inl rfl
    · exact .inr (.inl ⟨e, h, rfl⟩)
    · exact .inr (.inr ⟨e, h, rfl⟩)
  · rintro (rfl | ⟨e, h, rfl⟩ | ⟨e, h, rfl⟩)
    · exact ⟨_, .inl rfl, rfl⟩
    · exact ⟨e, .inr (.inl h), rfl⟩
    · exact ⟨e, .inr (.inr h), rfl⟩

theorem mem_visits {m : Model} (hm : WfModel m) {p : Str} : (∃ e ∈ visits m, e.2 = p) ↔ MentionsWord m p := by
  constructor
  · rintro ⟨e, he, rfl⟩
    obtain ⟨s, hs, he⟩ := List.mem_flatMap.mp he
    have hg := (mem_shapesList hm _).mp hs
    simp only [visitsShape, List.mem_append] at he
    rcases he with (he | he) | he
    · exact .shape hg (mem_visitsId.mp ⟨e, he, rfl⟩)
    · obtain ⟨t, v, hv, hp⟩ := mem_keysVisits.mp ⟨e, he, rfl⟩; exact .applied hg hv hp
    · have hmem : ∀ ms : AMap Str MemberShape, AMap.Wf ms → (s.body = .struct ms ∨ s.body = .union ms) →
          e ∈ visitsId s.id ++ (AMap.values ms).flatMap (visitsMember s.id) → MentionsWord m e.2 := by
        intro ms hw hb he
        rcases List.mem_append.mp he with he | he
        · exact .shape hg (mem_visitsId.mp ⟨e, he, rfl⟩)
        · obtain ⟨mem, hmem, he⟩ := List.mem_flatMap.mp he
          obtain ⟨⟨n, mem'⟩, hin, rfl⟩ := List.mem_map.mp hmem
          have hget := (AMap.mem_iff_get hw _ _).mp hin
          rcases mem_visitsMember.mp ⟨e, he, rfl⟩ with h | h | ⟨t, v, hv, hp⟩
          · rw [h]; exact .member hg hb hget
          · exact .target hg hb hget h
          · exact .memberTrait hg hb hget hv hp
      have hws := (hm.shapes _ _ hg).2
      split at he
      · next hb => rw [hb] at hws; exact hmem _ hws.nodup (.inl hb) (List.mem_append.mpr (List.mem_append.mp he))
      · next hb => rw [hb] at hws; exact hmem _ hws.nodup (.inr hb) (List.mem_append.mpr (List.mem_append.mp he))
      · cases he
  · have lift : ∀ s, m.shape s.id = some s → (∃ e ∈ visitsShape s, e.2 = p) → ∃ e ∈ visits m, e.2 = p := by
      rintro s hg ⟨e, he, rfl⟩
      exact ⟨e, List.mem_flatMap.mpr ⟨s, (mem_shapesList hm _).mpr hg, he⟩, rfl⟩
    have liftM : ∀ s (ms : AMap Str MemberShape) n mem, m.shape s.id = some s → (s.body = .struct ms ∨ s.body = .union ms) → ms.get n = some mem →
        (∃ e ∈ visitsMember s.id mem, e.2 = p) → ∃ e ∈ visits m, e.2 = p := by
      rintro s ms n mem hg hb hget ⟨e, he, rfl⟩
      refine lift s hg ⟨e, ?_, rfl⟩
      have : e ∈ (AMap.values ms).flatMap (visitsMember s.id) :=
        List.mem_flatMap.mpr ⟨mem, List.mem_map.mpr ⟨(n, mem), AMap.mem_of_get hget, rfl⟩, he⟩
      rcases hb with hb | hb <;> simp only [visitsShape, hb, List.mem_append] <;> exact .inr (.inr this)
    intro h
    cases h with
    | shape hg hp =>
      obtain rfl := hm.key _ _ hg
      obtain ⟨e, he, rfl⟩ := mem_visitsId.mpr hp
      exact lift _ hg ⟨e, by simp [visitsShape, he], rfl⟩
    | applied hg hv hp =>
      obtain rfl := hm.key _ _ hg
      obtain ⟨e, he, rfl⟩ := mem_keysVisits.mpr ⟨_, _, hv, hp⟩
      exact lift _ hg ⟨e, List.mem_append.mpr (.inl (List.mem_append.mpr (.inr he))), rfl⟩
    | member hg hb hget =>
      obtain rfl := hm.key _ _ hg
      exact liftM _ _ _ _ hg hb hget (mem_visitsMember.mpr (.inl rfl))
    | target hg hb hget hp =>
      obtain rfl := hm.key _ _ hg
      exact liftM _ _ _ _ hg hb hget (mem_visitsMember.mpr (.inr (.inl hp)))
    | memberTrait hg hb hget hv hp =>
      obtain rfl := hm.key _ _ hg
      exact liftM _ _ _ _ hg hb hget (mem_visitsMember.mpr (.inr (.inr ⟨_, _, hv, hp⟩)))

theorem unwelcome_iff (w : Str) : unwelcome.contains w = true ↔ Unwelcome w := by
  simp [unwelcome, Unwelcome]

end Terms

open Terms

/-- C48: a term is newly reported exactly when it is unwelcome and a word of an identifier that occurs in the model and has
not been checked before by this linter. -/
theorem C48_reported_iff (h : Heck) (m : Model) (hm : WfModel m) (st : State) : ∃ new, (check h m st).issues = st.issues ++ new ∧
    ∀ w, (∃ i ∈ new, i.message = termMessage w) ↔
      ∃ p, MentionsWord m p ∧ p ∉ st.checked ∧ w ∈ splitOn '_' (h.snake p) ∧ Unwelcome w := by
  refine ⟨reports h st.checked (visits m), by rw [check_eq, steps_issues], fun w => ?_⟩
  rw [reports_message]
  constructor
  · rintro ⟨e, he, hn, w', hw, hu, ht⟩
    have : w = w' := List.append_cancel_left (List.append_cancel_right ht)
    subst this
    exact ⟨e.2, (mem_visits hm).mp ⟨e, he, rfl⟩, hn, hw, (unwelcome_iff w).mp hu⟩
  · rintro ⟨p, hp, hn, hw, hu⟩
    obtain ⟨e, he, rfl⟩ := (mem_visits hm).mpr hp
    exact ⟨e, he, hn, w, hw, (unwelcome_iff w).mpr hu, rfl⟩

theorem Terms.reports_once (h : Heck) (l : List (ShapeID × Str)) (c : List Str) : ∃ ids : List Str, ids.Nodup ∧
    (∀ p, p ∈ ids ↔ (∃ e ∈ l, e.2 = p) ∧ p ∉ c) ∧
    (reports h c l).map (·.message) = ids.flatMap fun p => ((splitWords h p).filter unwelcome.contains).map termMessage := by
  induction l generalizing c with
  | nil => exact ⟨[], by simp [reports]⟩
  | cons e l ih =>
    rw [reports]
    split
    · next hc =>
      have hc : e.2 ∈ c := by simpa using hc
      obtain ⟨ids, h1, h2, h3⟩ := ih c
      refine ⟨ids, h1, fun p => ?_, h3⟩
      rw [h2]
      constructor
      · rintro ⟨⟨x, hx, rfl⟩, hn⟩; exact ⟨⟨x, by simp [hx], rfl⟩, hn⟩
      · rintro ⟨⟨x, hx, rfl⟩, hn⟩
        rcases List.mem_cons.mp hx with rfl | hx
        · exact absurd hc hn
        · exact ⟨⟨x, hx, rfl⟩, hn⟩
    · next hc =>
      have hc : e.2 ∉ c := by simpa using hc
      obtain ⟨ids, h1, h2, h3⟩ := ih (e.2 :: c)
      refine ⟨e.2 :: ids, List.nodup_cons.mpr ⟨fun hin => ?_, h1⟩, fun p => ?_, ?_⟩
      · exact ((h2 _).mp hin).2 (by simp)
      · rw [List.mem_cons, h2]
        constructor
        · rintro (rfl | ⟨⟨x, hx, rfl⟩, hn⟩)
          · exact ⟨⟨e, by simp, rfl⟩, hc⟩
          · exact ⟨⟨x, by simp [hx], rfl⟩, fun hh => hn (by simp [hh])⟩
        · rintro ⟨⟨x, hx, rfl⟩, hn⟩
          by_cases he : x.2 = e.2
          · exact .inl he
          · rcases List.mem_cons.mp hx with rfl | hx
            · exact absurd rfl he
            · exact .inr ⟨⟨x, hx, rfl⟩, by simp [he, hn]⟩
      · rw [List.map_append, h3, List.flatMap_cons]
        simp [report, Function.comp_def]

/-- C48: each identifier is reported once: the new messages are those for the words of the identifiers in the model that
were not checked before, each identifier taken once. -/
theorem C48_each_once (h : Heck) (m : Model) (hm : WfModel m) (st : State) : ∃ (new : List Issue) (ids : List Str), (check h m st).issues = st.issues ++ new ∧
    ids.Nodup ∧ (∀ p, p ∈ ids ↔ MentionsWord m p ∧ p ∉ st.checked) ∧
    new.map (·.message) = ids.flatMap fun p => ((splitOn '_' (h.snake p)).filter unwelcome.contains).map termMessage := by
  obtain ⟨ids, h1, h2, h3⟩ := reports_once h (visits m) st.checked
  exact ⟨_, ids, by rw [check_eq, steps_issues], h1, fun p => by rw [h2, mem_visits hm], h3⟩

/-- Two shapes in the namespace `kill`, in either order. -/
def killModel (a b : Str) : Model :=
  ⟨.v10, [], [(⟨%s"kill", a, none⟩, ⟨⟨%s"kill", a, none⟩, [], .unresolved⟩), (⟨%s"kill", b, none⟩, ⟨⟨%s"kill", b, none⟩, [], .unresolved⟩)]⟩

/-- C48: which shape a term is attributed to depends on the enumeration order of the shapes: the same model, enumerated in
two orders, gives different issues. -/
theorem C48_locus_depends_on_order (h : Heck) (hk : h.snake %s"kill" = %s"kill") (ha : h.snake %s"A" = %s"a") (hb : h.snake %s"B" = %s"b") :
    SameModel (killModel %s"A" %s"B") (killModel %s"B" %s"A") ∧
    ((check h (killModel %s"A" %s"B") ⟨[], []⟩).issues.map (·.locus) = [some ⟨%s"kill", %s"A", none⟩]) ∧
    ((check h (killModel %s"B" %s"A") ⟨[], []⟩).issues.map (·.locus) = [some ⟨%s"kill", %s"B", none⟩]) := by
  have hw : AMap.Wf (killModel %s"A" %s"B").shapes := by unfold AMap.Wf; decide
  refine ⟨⟨rfl, MapRel.nil, (MapRel.of_perm hw (List.Perm.swap _ _ _)).mono fun _ _ e => e ▸ SameShape.refl _⟩, ?_, ?_⟩
  · rw [check_eq, steps_issues]
    simp [visits, killModel, Model.shapesList, AMap.values, visitsShape, visitsId, identifiers, AMap.keys, reports, report, splitWords,
      splitOn, hk, ha, hb, unwelcome]
  · rw [check_eq, steps_issues]
    simp [visits, killModel, Model.shapesList, AMap.values, visitsShape, visitsId, identifiers, AMap.keys, reports, report, splitWords,
      splitOn, hk, ha, hb, unwelcome]

/-- C48: afterwards the linter has checked the identifiers it had checked before and those in the model. -/
theorem C48_checked_iff (h : Heck) (m : Model) (hm : WfModel m) (st : State) (p : Str) :
    p ∈ (check h m st).checked ↔ p ∈ st.checked ∨ MentionsWord m p := by
  rw [check_eq, steps_checked, mem_visits hm]

/-- C48: checking a model a second time with the same linter reports nothing and changes nothing. -/
theorem C48_second_check (h : Heck) (m : Model) (st : State) : check h m (check h m st) = check h m st := by
  rw [check_eq h m (check h m st)]
  refine steps_id h _ _ fun e he => ?_
  rw [check_eq, steps_checked]
  exact .inr ⟨e, he, rfl⟩

/-- C38: all that `UnwelcomeTerms` reports are warnings. -/
theorem C38_terms_warn (h : Heck) (m : Model) (st : State) : ∀ i ∈ (check h m st).issues, i ∈ st.issues ∨ i.level = .warning := by
  intro i hi
  rw [check_eq, steps_issues, List.mem_append] at hi
  refine hi.imp id fun hi => ?_
  generalize st.checked = c at hi
  generalize visits m = l at hi
  induction l generalizing c with
  | nil => cases hi
  | cons e l ih =>
    rw [reports] at hi
    split at hi
    · exact ih _ hi
    · rcases List.mem_append.mp hi with hi | hi
      · simp only [report, List.mem_map] at hi
        obtain ⟨w, -, rfl⟩ := hi; rfl
      · exact ih _ hi

/-- C38, violation: a shape named `kill` gets a warning (given that `kill` is `kill` in snake case). -/
theorem C38_violated (h : Heck) (hk : h.snake %s"kill" = %s"kill") :
    ∃ m, WfModel m ∧ ∃ i ∈ (check h m ⟨[], []⟩).issues, i.level ≠ .info := by
  let s : TopLevelShape := ⟨sid %s"kill", [], .simple .string⟩
  have hm : WfModel ⟨.v10, [], [(s.id, s)]⟩ := wf_singleShape s rfl ⟨⟨AMap.wf_nil, (by simp [s])⟩, trivial⟩ [] AMap.wf_nil (by simp)
  obtain ⟨new, he, hn⟩ := C48_reported_iff h _ hm ⟨[], []⟩
  obtain ⟨i, hi, -⟩ := (hn %s"kill").mpr ⟨%s"kill", .shape (id := s.id) (s := s) (by simp [Model.shape, AMap.get_cons]) .name,
    by simp, by rw [hk]; decide, .inr (.inl rfl)⟩
  refine ⟨_, hm, i, by rw [he]; simpa using hi, ?_⟩
  rcases C38_terms_warn h _ ⟨[], []⟩ i (by rw [he]; simpa using hi) with hi | hi
  · cases hi
  · rw [hi]; simp

/-- C37: the levels are ordered as declared (information, warning, error), and no two have the same text. -/
theorem C37_levels : IssueLevel.info.rank < IssueLevel.warning.rank ∧ IssueLevel.warning.rank < IssueLevel.error.rank ∧
    ∀ a b : IssueLevel, a.display = b.display → a = b := by
  refine ⟨by decide, by decide, ?_⟩
  intro a b h
  cases a <;> cases b <;> first | rfl | exact absurd h (by decide)

/-- C37: making an issue panics exactly for an empty message; otherwise the issue has the level, the reporter, the message
and the locus it was made with. -/
theorem C37_issue_new (l : IssueLevel) (r m : Str) (o : Option ShapeID) :
    (Issue.new l r m o = .error .panic ↔ m = []) ∧
    (m ≠ [] → ∃ i, Issue.new l r m o = .ok i ∧ i.level = l ∧ i.reporter = r ∧ i.message = m ∧ i.locus = o) := by
  cases m with
  | nil => exact ⟨⟨fun _ => rfl, fun _ => rfl⟩, fun h => absurd rfl h⟩
  | cons c m =>
    refine ⟨⟨fun h => ?_, fun h => (by cases h)⟩, fun _ => ⟨_, rfl, rfl, rfl, rfl, rfl⟩⟩
    simp [Issue.new] at h

end Verif
