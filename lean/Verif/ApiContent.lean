/-
C94: the model built by a program of the builder API has what the program says.
-/
import Verif.ApiProgramProps
import Verif.BuilderApply

namespace Verif.Spec.Api
open Verif.Api

/-- The trait builder that a constructor makes; what the functions for prelude traits make is in C62. -/
inductive StartMakes : TraitStart → TraitBuilder → Prop
  | new {id n} : Names id n → StartMakes (.new id) ⟨n, none⟩
  | annotation {id n} : Names id n → StartMakes (.annotation id) ⟨n, some (.object [])⟩
  | withValue {id n v} : Names id n → StartMakes (.withValue id v) ⟨n, some v⟩
  | prelude {f t} : f.run = .ok t → StartMakes (.prelude f) t

/-- The trait builder that a program makes: the value is that of the last setter. -/
inductive TraitMakes : TraitProgram → TraitBuilder → Prop
  | plain {s t} : StartMakes s t → TraitMakes ⟨s, []⟩ t
  | setTo {s t cs c v} : StartMakes s t → SetTo c v → TraitMakes ⟨s, cs ++ [c]⟩ ⟨t.name, some v⟩

/-- The member builder that a program makes. -/
inductive MemberMakes : MemberProgram → MemberBuilder → Prop
  | new {n t tn ps ts} : IsIdentifier n → Names t tn → ListRel TraitMakes ps ts → MemberMakes ⟨.new n t, ps⟩ ⟨n, ts, tn⟩
  | simple {k n ps ts} : IsIdentifier n → ListRel TraitMakes ps ts →
      MemberMakes ⟨.simple k n, ps⟩ ⟨n, ts, .qualified ⟨%s"smithy.api", k.preludeName, none⟩⟩

/-- The member that a step adds to a structure or union. -/
inductive StepMakes : StructStep → MemberBuilder → Prop
  | member {n t tn} : IsIdentifier n → Names t tn → StepMakes (.member n t) ⟨n, [], tn⟩
  | addMember {m b} : MemberMakes m b → StepMakes (.addMember m) b
  | simple {k n} : IsIdentifier n → StepMakes (.simple k n) ⟨n, [], .local' k.preludeName⟩

/-- The member of this name with this target, unless other members replace it: then the last of these. -/
inductive LastMakes (name target : Str) : List MemberProgram → MemberBuilder → Prop
  | first {tn} : Names target tn → LastMakes name target [] ⟨name, [], tn⟩
  | replaced {tn ps p b} : Names target tn → (∀ q ∈ ps, ∃ b', MemberMakes q b') → MemberMakes p b → LastMakes name target (ps ++ [p]) b

/-- The body that a program makes. -/
inductive BodyMakes : BodyProgram → BuilderBody → Prop
  | simple {k} : BodyMakes (.simple k) (.simple k)
  | list {t ms b} : LastMakes %s"member" t ms b → BodyMakes (.list t ms) (.list b)
  | set {t ms b} : LastMakes %s"member" t ms b → BodyMakes (.set t ms) (.set b)
  | map {k v ks vs bk bv} : LastMakes %s"key" k ks bk → LastMakes %s"value" v vs bv → BodyMakes (.map k v ks vs) (.map bk bv)
  | struct {ss bs} : ListRel StepMakes ss bs → BodyMakes (.struct ss) (.struct bs)
  | union {ss bs} : ListRel StepMakes ss bs → BodyMakes (.union ss) (.union bs)
  | service {v cs f} : (∀ c ∈ cs, ServiceCall.Ok c) → ServiceSays v cs f → BodyMakes (.service v cs) (.service f.version f.operations f.resources f.renames)
  | operation {cs f} : (∀ c ∈ cs, OperationCall.Ok c) → OperationSays cs f → BodyMakes (.operation cs) (.operation f.input f.output f.errors)
  | resource {cs f} : (∀ c ∈ cs, ResourceCall.Ok c) → ResourceSays cs f → BodyMakes (.resource cs)
      (.resource f.identifiers f.create f.put f.read f.update f.delete f.list f.operations f.collectionOperations f.resources)

/-- The shape builder that a program makes. -/
structure ShapeMakes (p : ShapeProgram) (b : Builder) : Prop where
  name : Names p.name b.name
  body : BodyMakes p.body b.body
  traits : ListRel TraitMakes p.traits b.traits

/-- What the call puts into the model builder under the name. -/
inductive Declares : Call → ShapeName → Builder → Prop
  | shape {p b} : ShapeMakes p b → Declares (.shape p) b.name b
  | uses {s id} : ShapeID.fromStr s = .ok id → Declares (.uses s) (.qualified id) ⟨.qualified id, [], .reference⟩
  | reference {s id ps ts} : ShapeID.fromStr s = .ok id → ListRel TraitMakes ps ts →
      Declares (.reference s ps) (.qualified id) ⟨.qualified id, ts, .reference⟩

/-- The call applies a trait to a name that may be this one: an absolute name with the same shape name. -/
def Touches (c : Call) (n : ShapeName) : Prop :=
  ∃ s t sn id, c = .apply s t ∧ Names s sn ∧ n = .qualified id ∧ SameName id.name sn.shapeName

/-- What a name given to `apply` stands for; the flag tells that nothing by that name is known. An absolute id stands for itself, also if it is that of a
member. -/
inductive Stands (mb : ModelBuilder) : ShapeName → ShapeID → Bool → Prop
  | absolute {id} : Stands mb (.qualified id) id false
  | relative {l id new} : Resolves mb false (.local' l) id new → Stands mb (.local' l) id new

/-- The builder after a trait was applied to an id. A shape that is known gets the trait after those it has; a shape that is not known is imported, with this
trait; the member of a shape must be there. A name of which nothing is known replaces whatever there is under the id it is taken for. -/
inductive Applied (mb : ModelBuilder) (id : ShapeID) (new : Bool) (t : TraitBuilder) (mb' : ModelBuilder) : Prop
  | shape {old} : id.member = none → new = false → mb.shapes.get (.qualified id) = some old →
      EntryChanged mb mb' (.qualified id) ⟨old.name, old.traits ++ [t], old.body⟩ → Applied mb id new t mb'
  | imported : id.member = none → (new = true ∨ mb.shapes.get (.qualified id) = none) →
      EntryChanged mb mb' (.qualified id) ⟨.qualified id, [t], .reference⟩ → Applied mb id new t mb'
  | member {k old body} : id.member = some k → mb.shapes.get (.qualified ⟨id.ns, id.name, none⟩) = some old → MemberApplied k t old.body body →
      EntryChanged mb mb' (.qualified ⟨id.ns, id.name, none⟩) ⟨old.name, old.traits, body⟩ → Applied mb id new t mb'

/-- The builder after a call, given the builder before it (maps are compared by what they have, not by their order). -/
inductive Does (mb : ModelBuilder) : Call → ModelBuilder → Prop
  | declares {c n b mb'} : Declares c n b → EntryChanged mb mb' n b → Does mb c mb'
  | apply {s tp t n id new mb'} : Names s n → TraitMakes tp t → Stands mb n id new → Applied mb id new t mb' → Does mb (.apply s tp) mb'
  | metaData {k v mb'} : mb'.version = mb.version → mb'.defaultNs = mb.defaultNs → mb'.shapes = mb.shapes →
      (∀ k', mb'.metadata.get k' = if k' = k then some v else mb.metadata.get k') → Does mb (.metaData k v) mb'
  | metaDataFrom {m mb'} : mb'.version = mb.version → mb'.defaultNs = mb.defaultNs → mb'.shapes = mb.shapes →
      (∀ k', mb'.metadata.get k' = (AMap.get m k').or (mb.metadata.get k')) → Does mb (.metaDataFrom m) mb'

/-- The metadata that a call sets. -/
def sets (k : Str) : Call → Option Value
  | .metaData k' v => if k' = k then some v else none
  | .metaDataFrom m => AMap.get m k
  | _ => none

/-- The call is one that does not panic, if it is not one that applies a trait. -/
inductive Allowed : Call → Prop
  | declares {c n b} : Declares c n b → Allowed c
  | metaData {k v} : Allowed (.metaData k v)
  | metaDataFrom {m} : Allowed (.metaDataFrom m)

end Verif.Spec.Api

namespace Verif
open Spec Spec.Api

/-! ### What the parts of a program make -/

/-- The outcome is described by `Makes`: a result it allows, or a panic if there is none. -/
abbrev Decides {α : Type} (Makes : α → Prop) (x : Except Err α) : Prop := Outcome Makes (¬ ∃ a, Makes a) x

theorem start_decides (s : Api.TraitStart) : Decides (StartMakes s) (Api.TraitProgram.begin s) := by
  cases s with
  | new id => exact (nameArg_outcome id).bind (fun n hn => .ok (.new hn)) fun hb ⟨t, ht⟩ => hb (by cases ht with | new h => exact ⟨_, h⟩)
  | annotation id => exact (nameArg_outcome id).bind (fun n hn => .ok (.annotation hn)) fun hb ⟨t, ht⟩ => hb (by cases ht with | annotation h => exact ⟨_, h⟩)
  | withValue id v => exact (nameArg_outcome id).bind (fun n hn => .ok (.withValue hn)) fun hb ⟨t, ht⟩ => hb (by cases ht with | withValue h => exact ⟨_, h⟩)
  | prelude f =>
    simp only [Api.TraitProgram.begin]
    cases h : f.run with
    | ok t => exact .ok (.prelude h)
    | error e =>
      have he : e = .panic := by
        by_cases hm : Misused f
        · rw [(C62_panics f).mpr hm] at h; cases h; rfl
        · exfalso
          by_cases hv : Valueless f
          · rcases hv with rfl | rfl <;> cases h
          · cases f with
            | length a b =>
              have : ¬ (a = none ∧ b = none) := by rintro ⟨rfl, rfl⟩; exact hm .length
              rw [TraitFn.run, bounds_ok _ _ _ this] at h; cases h
            | range a b =>
              have : ¬ (a = none ∧ b = none) := by rintro ⟨rfl, rfl⟩; exact hm .range
              rw [TraitFn.run, bounds_ok _ _ _ this] at h; cases h
            | lengthMax n => rw [TraitFn.run, bounds_ok _ _ _ (by simp)] at h; cases h
            | lengthMin n => rw [TraitFn.run, bounds_ok _ _ _ (by simp)] at h; cases h
            | rangeMax n => rw [TraitFn.run, bounds_ok _ _ _ (by simp)] at h; cases h
            | rangeMin n => rw [TraitFn.run, bounds_ok _ _ _ (by simp)] at h; cases h
            | _ =>
              obtain ⟨n, v, h', -⟩ := C62_trait_functions _ hm hv (by simp [boundsOf])
              rw [h] at h'; cases h'
      subst he
      exact .panic fun ⟨t, ht⟩ => by cases ht with | prelude ht => rw [h] at ht; cases ht

theorem trait_decides (p : Api.TraitProgram) : Decides (TraitMakes p) p.run := by
  obtain ⟨s, cs⟩ := p
  refine (start_decides s).bind (fun t ht => ?_) fun hb ⟨t, ht⟩ => hb (by cases ht with | plain h => exact ⟨_, h⟩ | setTo h _ => exact ⟨_, h⟩)
  rcases List.eq_nil_or_concat cs with rfl | ⟨cs, c, rfl⟩
  · exact .ok (.plain ht)
  · obtain ⟨v, hv⟩ : ∃ v, SetTo c v := by
      cases c with
      | reference id =>
        obtain ⟨ns, n, m⟩ := id
        cases m with
        | none => exact ⟨_, .shape⟩
        | some m => exact ⟨_, .member⟩
      | array => exact ⟨_, .array⟩
      | object => exact ⟨_, .object⟩
      | number => exact ⟨_, .number⟩
      | integer => exact ⟨_, .integer⟩
      | float => exact ⟨_, .float⟩
      | boolean => exact ⟨_, .boolean⟩
      | string => exact ⟨_, .string⟩
      | value => exact ⟨_, .value⟩
    have := C63_setters t cs c v hv
    simp only [List.concat_eq_append]
    rw [this]
    exact .ok (.setTo ht hv)

theorem collect_decides {A B : Type} {f : A → Except Err B} {Makes : A → B → Prop} (hf : ∀ a, Decides (Makes a) (f a)) (as : List A) :
    Decides (ListRel Makes as) (Api.collect f as) := by
  unfold Api.collect
  refine (eachArg_calls (Says := ListRel Makes) (Ok := fun a => ∃ b, Makes a b) listRel_nil (fun cs s c h => ?_) as).mono (fun _ h => h.2) fun hb ⟨bs, hr⟩ => hb fun a ha => ?_
  · exact (hf c).bind (fun b hb => .ok ⟨⟨b, hb⟩, listRel_concat h hb⟩) id
  · obtain ⟨b, _, h⟩ := (listRel_split hr).1 a ha
    exact ⟨b, h⟩

theorem member_decides (p : Api.MemberProgram) : Decides (MemberMakes p) p.run := by
  obtain ⟨s, ps⟩ := p
  have hts := collect_decides trait_decides ps
  cases s with
  | new n t =>
    refine (memberNew_outcome n t).bind ?_ fun hb ⟨b, hm⟩ => hb (by cases hm with | new h1 h2 h3 => exact ⟨h1, _, h2⟩)
    rintro m ⟨hn, tn, ht, rfl⟩
    exact hts.bind (fun ts h => .ok (.new hn ht h)) fun hb ⟨b, hm⟩ => hb (by cases hm with | new h1 h2 h3 => exact ⟨_, h3⟩)
  | simple k n =>
    refine Outcome.bind (G := fun m => IsIdentifier n ∧ m = ⟨n, [], .qualified ⟨preludeNs, k.preludeName, none⟩⟩) (B := ¬ IsIdentifier n) ?_ ?_ fun hb ⟨b, hm⟩ => hb (by cases hm with | simple h1 h3 => exact h1)
    · exact (identArg_outcome n).bind (by rintro n' ⟨rfl, h⟩; exact .ok ⟨h, rfl⟩) id
    · rintro m ⟨hn, rfl⟩
      exact hts.bind (fun ts h => .ok (.simple hn h)) fun hb ⟨b, hm⟩ => hb (by cases hm with | simple h1 h3 => exact ⟨_, h3⟩)

theorem listRel_trans {A B C : Type} {R : A → B → Prop} {S : B → C → Prop} {T : A → C → Prop} (h : ∀ a b c, R a b → S b c → T a c)
    {as : List A} {bs : List B} {cs : List C} (h1 : ListRel R as bs) (h2 : ListRel S bs cs) : ListRel T as cs := by
  induction as generalizing bs cs with
  | nil => rw [listRel_nil_left h1] at h2; rw [listRel_nil_left h2]; exact listRel_nil
  | cons a as ih =>
    obtain ⟨b, bs', rfl, hab, h1'⟩ := listRel_cons_left h1
    obtain ⟨c, cs', rfl, hbc, h2'⟩ := listRel_cons_left h2
    exact listRel_cons.mpr ⟨h _ _ _ hab hbc, ih h1' h2'⟩

/-- The call that a step makes. -/
inductive StepCall : Api.StructStep → StructCall → Prop
  | member {n t} : StepCall (.member n t) (.member n t)
  | addMember {m b} : MemberMakes m b → StepCall (.addMember m) (.addMember b)
  | simple {k n} : StepCall (.simple k n) (.simple k n)

theorem step_decides (s : Api.StructStep) : Decides (StepCall s) s.run := by
  cases s with
  | member n t => exact .ok .member
  | addMember m => exact (member_decides m).bind (fun b hb => .ok (.addMember hb)) fun hb ⟨c, hc⟩ => hb (by cases hc with | addMember h => exact ⟨_, h⟩)
  | simple k n => exact .ok .simple

theorem steps_decides (ss : List Api.StructStep) : Decides (ListRel StepMakes ss) (Api.BodyProgram.structMembers ss) := by
  unfold Api.BodyProgram.structMembers
  refine (collect_decides step_decides ss).bind (fun cs hcs => ?_) fun hb ⟨bs, hbs⟩ => hb ?_
  · obtain ⟨h1, h2, h3⟩ := C65_structure cs
    cases hm : StructureBuilder.members cs with
    | ok ms =>
      refine .ok (listRel_trans (fun a b c hab hbc => ?_) hcs (h1 ms hm))
      cases hab with
      | member => cases hbc with | member hn ht => exact .member hn ht
      | addMember h => cases hbc; exact .addMember h
      | simple => cases hbc with | simple hn => exact .simple hn
    | error e =>
      cases h3 e hm
      refine .panic fun ⟨bs, hbs⟩ => ?_
      have : ∃ ms, StructureBuilder.members cs = .ok ms := h2.mpr fun c hc => by
        obtain ⟨s, hs, hsc⟩ := (listRel_split hcs).2 c hc
        obtain ⟨b, _, hb⟩ := (listRel_split hbs).1 s hs
        cases hsc with
        | member => cases hb with | member hn ht => exact ⟨_, .member hn ht⟩
        | addMember h => exact ⟨_, .addMember⟩
        | simple => cases hb with | simple hn => exact ⟨_, .simple hn⟩
      obtain ⟨ms, h⟩ := this
      rw [hm] at h; cases h
  · clear hb
    induction ss generalizing bs with
    | nil => exact ⟨[], listRel_nil⟩
    | cons s ss ih =>
      obtain ⟨b, bs', rfl, hab, h'⟩ := listRel_cons_left hbs
      obtain ⟨cs, hcs⟩ := ih ⟨bs', h'⟩ bs' h'
      cases hab with
      | member hn ht => exact ⟨_ :: cs, listRel_cons.mpr ⟨.member, hcs⟩⟩
      | addMember h => exact ⟨_ :: cs, listRel_cons.mpr ⟨.addMember h, hcs⟩⟩
      | simple hn => exact ⟨_ :: cs, listRel_cons.mpr ⟨.simple, hcs⟩⟩

theorem makes_all {ps : List Api.MemberProgram} (h : ∀ q ∈ ps, ∃ b, MemberMakes q b) : ∃ bs, ListRel MemberMakes ps bs := by
  induction ps with
  | nil => exact ⟨[], listRel_nil⟩
  | cons q ps ih =>
    obtain ⟨b', hb'⟩ := h q (by simp)
    obtain ⟨bs, hbs⟩ := ih fun q hq => h q (by simp [hq])
    exact ⟨_, listRel_cons.mpr ⟨hb', hbs⟩⟩

theorem replaced_outcome (m : MemberBuilder) (ms : List Api.MemberProgram) :
    Outcome (fun b => (ms = [] ∧ b = m) ∨ ∃ ps p, ms = ps ++ [p] ∧ (∀ q ∈ ps, ∃ b', MemberMakes q b') ∧ MemberMakes p b)
      (¬ ∀ q ∈ ms, ∃ b, MemberMakes q b) (Api.replaced m ms) := by
  unfold Api.replaced
  refine (collect_decides member_decides ms).bind (fun bs hbs => .ok ?_) fun hb h => hb (makes_all h)
  rcases List.eq_nil_or_concat ms with rfl | ⟨ms, p, rfl⟩
  · rw [listRel_nil_left hbs]; exact .inl ⟨rfl, rfl⟩
  · simp only [List.concat_eq_append] at hbs ⊢
    rcases List.eq_nil_or_concat bs with rfl | ⟨bs, b, rfl⟩
    · have := hbs.1; simp at this
    · simp only [List.concat_eq_append] at hbs
      rw [List.concat_eq_append, List.foldl_append]
      have hlen : ms.length = bs.length := by have := hbs.1; simpa using this
      refine .inr ⟨ms, p, rfl, fun q hq => ?_, hbs.2 ms.length p b (by simp) (by simp [hlen])⟩
      obtain ⟨b', _, h⟩ := (listRel_split hbs).1 q (by simp [hq])
      exact ⟨b', h⟩

theorem lastMakes_iff {n t : Str} {ms : List Api.MemberProgram} {b : MemberBuilder} : LastMakes n t ms b ↔ ∃ tn, Names t tn ∧
    ((ms = [] ∧ b = ⟨n, [], tn⟩) ∨ ∃ ps p, ms = ps ++ [p] ∧ (∀ q ∈ ps, ∃ b', MemberMakes q b') ∧ MemberMakes p b) := by
  constructor
  · intro h
    cases h with
    | first h => exact ⟨_, h, .inl ⟨rfl, rfl⟩⟩
    | replaced h h1 h2 => exact ⟨_, h, .inr ⟨_, _, rfl, h1, h2⟩⟩
  · rintro ⟨tn, h, ⟨rfl, rfl⟩ | ⟨ps, p, rfl, h1, h2⟩⟩
    · exact .first h
    · exact .replaced h h1 h2

theorem lastMakes_all {n t : Str} {ms : List Api.MemberProgram} {b : MemberBuilder} (h : LastMakes n t ms b) : Nameable t ∧ ∀ q ∈ ms, ∃ b, MemberMakes q b := by
  cases h with
  | first h => exact ⟨⟨_, h⟩, by simp⟩
  | replaced h h1 h2 =>
    refine ⟨⟨_, h⟩, fun q hq => ?_⟩
    rcases List.mem_append.mp hq with hq | hq
    · exact h1 q hq
    · rw [List.mem_singleton.mp hq]; exact ⟨_, h2⟩

theorem last_decides (n t : Str) (hn : IsIdentifier n) (ms : List Api.MemberProgram) :
    Decides (LastMakes n t ms) (MemberBuilder.new n t >>= fun m => Api.replaced m ms) := by
  refine (memberNew_outcome n t).bind ?_ fun hb ⟨b, hm⟩ => hb ⟨hn, (lastMakes_all hm).1⟩
  rintro m ⟨-, tn, ht, rfl⟩
  exact (replaced_outcome _ ms).mono (fun b h => lastMakes_iff.mpr ⟨tn, ht, h⟩) fun hb ⟨b, hm⟩ => hb (lastMakes_all hm).2

theorem three_decides {A : Type} {P : A → Prop} {Ok : Prop} {x : Except Err A} (h1 : ∀ a, x = .ok a → P a) (h2 : (∃ a, x = .ok a) ↔ Ok)
    (h3 : ∀ e, x = .error e → e = .panic) : Outcome (fun a => Ok ∧ P a) (¬ Ok) x := by
  cases x with
  | ok a => exact .ok ⟨h2.mp ⟨a, rfl⟩, h1 a rfl⟩
  | error e =>
    cases h3 e rfl
    exact .panic fun h => by obtain ⟨a, ha⟩ := h2.mpr h; cases ha

theorem body_decides (p : Api.BodyProgram) : Decides (BodyMakes p) p.run := by
  cases p with
  | simple k => exact .ok .simple
  | list t ms => exact (last_decides memberMember t ((isIdent_iff _).mp rfl) ms).bind (fun b hb => .ok (.list hb)) fun hb ⟨b, hm⟩ => hb (by cases hm with | list h => exact ⟨_, h⟩)
  | set t ms => exact (last_decides memberMember t ((isIdent_iff _).mp rfl) ms).bind (fun b hb => .ok (.set hb)) fun hb ⟨b, hm⟩ => hb (by cases hm with | set h => exact ⟨_, h⟩)
  | map k v ks vs =>
    refine (memberNew_outcome memberKey k).bind ?_ fun hb ⟨b, hm⟩ => hb (by cases hm with | map h1 h2 => exact ⟨(isIdent_iff _).mp rfl, (lastMakes_all h1).1⟩)
    rintro mk ⟨-, tk, hk, rfl⟩
    refine (memberNew_outcome memberValue v).bind ?_ fun hb ⟨b, hm⟩ => hb (by cases hm with | map h1 h2 => exact ⟨(isIdent_iff _).mp rfl, (lastMakes_all h2).1⟩)
    rintro mv ⟨-, tv, hv, rfl⟩
    refine (replaced_outcome _ ks).bind (fun bk hbk => ?_) fun hb ⟨b, hm⟩ => hb (by cases hm with | map h1 h2 => exact (lastMakes_all h1).2)
    exact (replaced_outcome _ vs).bind (fun bv hbv => .ok (.map (lastMakes_iff.mpr ⟨tk, hk, hbk⟩) (lastMakes_iff.mpr ⟨tv, hv, hbv⟩)))
      fun hb ⟨b, hm⟩ => hb (by cases hm with | map h1 h2 => exact (lastMakes_all h2).2)
  | struct ss => exact (steps_decides ss).bind (fun b hb => .ok (.struct hb)) fun hb ⟨b, hm⟩ => hb (by cases hm with | struct h => exact ⟨_, h⟩)
  | union ss => exact (steps_decides ss).bind (fun b hb => .ok (.union hb)) fun hb ⟨b, hm⟩ => hb (by cases hm with | union h => exact ⟨_, h⟩)
  | service v cs =>
    obtain ⟨h1, h2, h3⟩ := C65_service v cs
    exact (three_decides h1 h2 h3).bind (fun f hf => .ok (.service hf.1 hf.2)) fun hb ⟨b, hm⟩ => hb (by cases hm with | service h _ => exact h)
  | operation cs =>
    obtain ⟨h1, h2, h3⟩ := C65_operation cs
    exact (three_decides h1 h2 h3).bind (fun f hf => .ok (.operation hf.1 hf.2)) fun hb ⟨b, hm⟩ => hb (by cases hm with | operation h _ => exact h)
  | resource cs =>
    obtain ⟨h1, h2, h3⟩ := C65_resource cs
    exact (three_decides h1 h2 h3).bind (fun f hf => .ok (.resource hf.1 hf.2)) fun hb ⟨b, hm⟩ => hb (by cases hm with | resource h _ => exact h)

theorem shape_decides (p : Api.ShapeProgram) : Decides (ShapeMakes p) p.run := by
  unfold Api.ShapeProgram.run
  refine (nameArg_outcome p.name).bind (fun n hn => ?_) fun hb ⟨b, hm⟩ => hb ⟨_, hm.name⟩
  refine (body_decides p.body).bind (fun body hbody => ?_) fun hb ⟨b, hm⟩ => hb ⟨_, hm.body⟩
  exact (collect_decides trait_decides p.traits).bind (fun ts hts => .ok ⟨hn, hbody, hts⟩) fun hb ⟨b, hm⟩ => hb ⟨_, hm.traits⟩

/-! ### Histories of calls -/

theorem get_insert_name (mb : ModelBuilder) (b : Builder) (n : ShapeName) :
    AMap.get (mb.insert b).shapes n = if b.name = n then some b else AMap.get mb.shapes n := by
  simp only [ModelBuilder.insert, AMap.get_insert]

theorem applyToQualified_touches {mb mb' : ModelBuilder} {id : ShapeID} {t : TraitBuilder} (h : mb.applyToQualified id t = .ok mb') (n : ShapeName)
    (hn : ∀ i, n = .qualified i → i.name ≠ id.name) : AMap.get mb'.shapes n = AMap.get mb.shapes n ∧ mb'.metadata = mb.metadata := by
  have h1 : ShapeName.qualified id.shapeOnly ≠ n := fun e => hn _ e.symm (by unfold ShapeID.shapeOnly; split <;> rfl)
  have h2 : ShapeName.qualified id ≠ n := fun e => hn _ e.symm rfl
  unfold ModelBuilder.applyToQualified at h
  split at h
  · split at h
    · split at h
      · cases h; simp [AMap.get_insert, h1]
      · cases h
    · cases h
  · split at h
    · cases h; simp [AMap.get_insert, h2]
    · cases h; simp [ModelBuilder.insert, AMap.get_insert, h2]

theorem resolve_name {mb : ModelBuilder} {l : Str} {tr : Bool} {id : ShapeID} {new : Bool} (h : mb.resolveShapeName (.local' l) tr = .ok (id, new)) :
    SameName id.name l := by
  unfold ModelBuilder.resolveShapeName at h
  simp only at h
  split at h
  · next he =>
    cases h
    have : ShapeName.qualified id ∈ mb.referenceNames.filter (fun n => identEq n.shapeName l) := by rw [he]; simp
    exact (identEq_iff _ _).mp (List.mem_filter.mp this).2
  · cases h
  · split at h
    · cases h; rfl
    · split at h
      · cases h; rfl
      · cases h; rfl
  · cases h

theorem apply_touches {mb mb' : ModelBuilder} {s : Str} {tp : Api.TraitProgram} {t : TraitBuilder} (h : mb.apply s t = .ok mb') (n : ShapeName)
    (hn : ¬ Touches (.apply s tp) n) : AMap.get mb'.shapes n = AMap.get mb.shapes n ∧ mb'.metadata = mb.metadata := by
  unfold ModelBuilder.apply at h
  cases hs : ShapeName.fromStr s with
  | error e => rw [hs] at h; cases h
  | ok sn =>
    rw [hs] at h
    have hs := (names_iff s sn).mp hs
    simp only [ModelBuilder.applyTo] at h
    cases sn with
    | qualified id =>
      refine applyToQualified_touches h n ?_
      rintro i rfl hi
      exact hn ⟨s, tp, _, i, rfl, hs, rfl, congrArg lower hi⟩
    | local' l =>
      simp only at h
      cases hr : mb.resolveShapeName (.local' l) false with
      | error e => rw [hr] at h; cases h
      | ok r =>
        obtain ⟨id, new⟩ := r
        rw [hr] at h
        simp only at h
        have hsame := resolve_name hr
        have hne : ∀ i, n = .qualified i → i.name ≠ id.name := by
          rintro i rfl hi
          exact hn ⟨s, tp, _, i, rfl, hs, rfl, (congrArg lower hi).trans hsame⟩
        obtain ⟨h1, h2⟩ := applyToQualified_touches h n hne
        rw [h1, h2]
        cases new with
        | false => exact ⟨rfl, rfl⟩
        | true =>
          refine ⟨?_, rfl⟩
          rw [if_pos rfl, get_insert_name, if_neg]
          intro e
          exact hne id e.symm rfl

theorem metaDataFrom_shapes (mb : ModelBuilder) (m : List (Str × Value)) : (Api.metaDataFrom mb m).shapes = mb.shapes ∧
    ((AMap.Wf m) → ∀ k, AMap.get (Api.metaDataFrom mb m).metadata k = (AMap.get m k).or (AMap.get mb.metadata k)) := by
  induction m generalizing mb with
  | nil => exact ⟨rfl, fun _ k => rfl⟩
  | cons e m ih =>
    obtain ⟨k, v⟩ := e
    obtain ⟨h1, h2⟩ := ih (mb.metaData k v)
    refine ⟨h1, fun hw k' => ?_⟩
    have hw' : k ∉ AMap.keys m ∧ AMap.Wf m := by simpa [AMap.Wf, AMap.keys] using hw
    rw [Api.metaDataFrom, h2 hw'.2, AMap.get_cons]
    simp only [ModelBuilder.metaData, AMap.get_insert]
    by_cases hk : k = k'
    · subst hk
      have hm : AMap.get m k = none := by
        cases hg : AMap.get m k with
        | none => rfl
        | some x => exact absurd (List.mem_map.mpr ⟨_, AMap.mem_of_get hg, rfl⟩) hw'.1
      simp [hm]
    · simp [hk]

/-- What one call does to the entry of a name. -/
theorem call_entry {mb mb' : ModelBuilder} {c : Api.Call} (h : Api.call mb c = .ok mb') (n : ShapeName) :
    (∃ b, Declares c n b ∧ AMap.get mb'.shapes n = some b) ∨
    ((∀ b, ¬ Declares c n b) ∧ (¬ Touches c n → AMap.get mb'.shapes n = AMap.get mb.shapes n)) := by
  have ins : ∀ b : Builder, Declares c b.name b → (∀ n b', Declares c n b' → n = b.name) → mb' = mb.insert b →
      (∃ b, Declares c n b ∧ AMap.get mb'.shapes n = some b) ∨
      ((∀ b, ¬ Declares c n b) ∧ (¬ Touches c n → AMap.get mb'.shapes n = AMap.get mb.shapes n)) := by
    rintro b hd hu rfl
    by_cases hn : b.name = n
    · subst hn
      exact .inl ⟨b, hd, by rw [get_insert_name, if_pos rfl]⟩
    · exact .inr ⟨fun b' hb' => hn (hu n b' hb').symm, fun _ => by rw [get_insert_name, if_neg hn]⟩
  cases c with
  | shape p =>
    simp only [Api.call] at h
    have hd := shape_decides p
    cases hr : p.run with
    | error e => rw [hr] at h; cases h
    | ok b =>
      rw [hr] at h hd
      cases h
      cases hd with
      | ok hb =>
        refine ins b (.shape hb) (fun n b' hb' => ?_) rfl
        cases hb' with
        | shape h' => exact Except.ok.inj (((names_iff _ _).mpr h'.name).symm.trans ((names_iff _ _).mpr hb.name))
  | uses s =>
    simp only [Api.call, ModelBuilder.uses] at h
    cases hs : ShapeID.fromStr s with
    | error e => rw [hs] at h; cases h
    | ok id =>
      rw [hs] at h
      cases h
      refine ins ⟨.qualified id, [], .reference⟩ (.uses hs) (fun n b' hb' => ?_) rfl
      cases hb' with
      | uses h' => rw [hs] at h'; cases h'; rfl
  | reference s ps =>
    simp only [Api.call, Api.reference] at h
    cases hs : ShapeID.fromStr s with
    | error e => rw [hs] at h; cases h
    | ok id =>
      rw [hs] at h
      have hd := collect_decides trait_decides ps
      cases hr : Api.collect Api.TraitProgram.run ps with
      | error e => rw [hr] at h; cases h
      | ok ts =>
        rw [hr] at h hd
        cases h
        cases hd with
        | ok hts =>
          refine ins ⟨.qualified id, ts, .reference⟩ (.reference hs hts) (fun n b' hb' => ?_) rfl
          cases hb' with
          | reference h' => rw [hs] at h'; cases h'; rfl
  | apply s tp =>
    refine .inr ⟨fun b hb => (by cases hb), fun hn => ?_⟩
    simp only [Api.call] at h
    cases hr : tp.run with
    | error e => rw [hr] at h; cases h
    | ok t =>
      rw [hr] at h
      exact (apply_touches h n hn).1
  | metaData k v =>
    cases h
    exact .inr ⟨fun b hb => (by cases hb), fun _ => rfl⟩
  | metaDataFrom m =>
    cases h
    exact .inr ⟨fun b hb => (by cases hb), fun _ => by rw [(metaDataFrom_shapes mb m).1]⟩

theorem run_append {v : Version} {ns : Str} {cs : List Api.Call} {c : Api.Call} {mb : ModelBuilder} (h : Api.run v ns (cs ++ [c]) = .ok mb) :
    ∃ mb0, Api.run v ns cs = .ok mb0 ∧ Api.call mb0 c = .ok mb := by
  unfold Api.run at h ⊢
  cases hn : ModelBuilder.new v ns with
  | error e => rw [hn] at h; cases h
  | ok m0 =>
    rw [hn] at h
    change eachArg Api.call m0 (cs ++ [c]) = _ at h
    rw [eachArg_concat] at h
    change ∃ mb0, eachArg Api.call m0 cs = _ ∧ _
    cases hr : eachArg Api.call m0 cs with
    | error e => rw [hr] at h; cases h
    | ok mb0 => rw [hr] at h; exact ⟨mb0, rfl, h⟩

theorem run_nil {v : Version} {ns : Str} {mb : ModelBuilder} (h : Api.run v ns [] = .ok mb) : IsNamespace ns ∧ mb = ⟨v, ns, [], []⟩ := by
  unfold Api.run at h
  cases hn : ModelBuilder.new v ns with
  | error e => rw [hn] at h; cases h
  | ok m0 =>
    rw [hn] at h
    cases h
    unfold ModelBuilder.new NamespaceID.fromStr at hn
    split at hn
    · next hi => cases hn; exact ⟨(isNamespace_iff _).mp hi, rfl⟩
    · cases hn

/-- C94: after a program of calls, the entry of a name is what the last call that declares it says, if no later call may apply a trait to it; every entry
was declared, or had a trait applied to it. -/
theorem C94_entries (v : Version) (ns : Str) (cs : List Api.Call) (mb : ModelBuilder) (hrun : Api.run v ns cs = .ok mb) (n : ShapeName) :
    (∀ pre c post, cs = pre ++ c :: post → (∃ b, Declares c n b) → (∀ c' ∈ post, (∀ b, ¬ Declares c' n b) ∧ ¬ Touches c' n) →
      ∃ b, Declares c n b ∧ AMap.get mb.shapes n = some b) ∧
    ((∀ c ∈ cs, (∀ b, ¬ Declares c n b) ∧ ¬ Touches c n) → AMap.get mb.shapes n = none) ∧
    ((∀ c ∈ cs, ¬ Touches c n) → ∀ b, AMap.get mb.shapes n = some b →
      ∃ pre c post, cs = pre ++ c :: post ∧ Declares c n b ∧ ∀ c' ∈ post, ∀ b, ¬ Declares c' n b) := by
  induction cs using List.reverseRecOn generalizing mb with
  | nil =>
    obtain ⟨-, rfl⟩ := run_nil hrun
    refine ⟨fun pre c post h => by simp at h, fun _ => rfl, fun _ b hb => by cases hb⟩
  | append_singleton cs c ih =>
    obtain ⟨mb0, hr, hc⟩ := run_append hrun
    obtain ⟨i1, i2, i3⟩ := ih mb0 hr
    have he := call_entry hc n
    refine ⟨?_, ?_, ?_⟩
    · intro pre d post hsplit hd hpost
      rcases List.eq_nil_or_concat post with rfl | ⟨post, x, rfl⟩
      · obtain ⟨rfl, h⟩ := List.append_inj' hsplit rfl
        cases h
        rcases he with he | ⟨he, -⟩
        · exact he
        · obtain ⟨b, hb⟩ := hd; exact absurd hb (he b)
      · rw [List.concat_eq_append] at hsplit hpost
        have hsplit : cs ++ [c] = (pre ++ d :: post) ++ [x] := by simpa using hsplit
        obtain ⟨rfl, h⟩ := List.append_inj' hsplit rfl
        cases h
        obtain ⟨b, hb, hg⟩ := i1 pre d post rfl hd fun c' hc' => hpost c' (by simp [hc'])
        obtain ⟨h1, h2⟩ := hpost c (by simp)
        rcases he with ⟨b', hb', -⟩ | ⟨-, he⟩
        · exact absurd hb' (h1 b')
        · exact ⟨b, hb, by rw [he h2]; exact hg⟩
    · intro hall
      obtain ⟨h1, h2⟩ := hall c (by simp)
      rcases he with ⟨b', hb', -⟩ | ⟨-, he⟩
      · exact absurd hb' (h1 b')
      · rw [he h2]; exact i2 fun c hc => hall c (by simp [hc])
    · intro hall b hb
      rcases he with ⟨b', hb', hg⟩ | ⟨hno, he⟩
      · rw [hb] at hg
        cases hg
        exact ⟨cs, c, [], rfl, hb', by simp⟩
      · rw [he (hall c (by simp))] at hb
        obtain ⟨pre, d, post, rfl, hd, hp⟩ := i3 (fun c hc => hall c (by simp [hc])) b hb
        refine ⟨pre, d, post ++ [c], by simp, hd, fun c' hc' => ?_⟩
        rcases List.mem_append.mp hc' with hc' | hc'
        · exact hp c' hc'
        · rw [List.mem_singleton.mp hc']; exact hno

theorem call_rest {mb mb' : ModelBuilder} {c : Api.Call} (h : Api.call mb c = .ok mb') : mb'.version = mb.version ∧ mb'.defaultNs = mb.defaultNs := by
  cases c with
  | shape p =>
    simp only [Api.call] at h
    cases hr : p.run with
    | error e => rw [hr] at h; cases h
    | ok b => rw [hr] at h; cases h; exact ⟨rfl, rfl⟩
  | uses s =>
    simp only [Api.call, ModelBuilder.uses] at h
    cases hs : unwrap (ShapeID.fromStr s) with
    | error e => rw [hs] at h; cases h
    | ok id => rw [hs] at h; cases h; exact ⟨rfl, rfl⟩
  | reference s ps =>
    simp only [Api.call] at h
    cases hr : Api.reference s ps with
    | error e => rw [hr] at h; cases h
    | ok b => rw [hr] at h; cases h; exact ⟨rfl, rfl⟩
  | apply s tp =>
    simp only [Api.call] at h
    cases hr : tp.run with
    | error e => rw [hr] at h; cases h
    | ok t =>
      rw [hr] at h
      have hq : ∀ {mb mb' : ModelBuilder} {id}, mb.applyToQualified id t = .ok mb' → mb'.version = mb.version ∧ mb'.defaultNs = mb.defaultNs := by
        intro mb mb' id h
        unfold ModelBuilder.applyToQualified at h
        split at h
        · split at h
          · split at h
            · cases h; exact ⟨rfl, rfl⟩
            · cases h
          · cases h
        · split at h <;> cases h <;> exact ⟨rfl, rfl⟩
      change mb.apply s t = _ at h
      unfold ModelBuilder.apply at h
      split at h
      · cases h
      · unfold ModelBuilder.applyTo at h
        split at h
        · exact hq h
        · split at h
          · cases h
          · obtain ⟨h1, h2⟩ := hq h
            rw [h1, h2]
            split <;> exact ⟨rfl, rfl⟩
  | metaData k v => cases h; exact ⟨rfl, rfl⟩
  | metaDataFrom m =>
    cases h
    induction m generalizing mb with
    | nil => exact ⟨rfl, rfl⟩
    | cons e m ih => exact ih (mb := mb.metaData e.1 e.2)

theorem call_metadata {mb mb' : ModelBuilder} {c : Api.Call} (h : Api.call mb c = .ok mb') (hw : ∀ m, c = .metaDataFrom m → AMap.Wf m) (k : Str) :
    AMap.get mb'.metadata k = (sets k c).or (AMap.get mb.metadata k) := by
  cases c with
  | shape p =>
    simp only [Api.call] at h
    cases hr : p.run with
    | error e => rw [hr] at h; cases h
    | ok b => rw [hr] at h; cases h; rfl
  | uses s =>
    simp only [Api.call, ModelBuilder.uses] at h
    cases hs : unwrap (ShapeID.fromStr s) with
    | error e => rw [hs] at h; cases h
    | ok id => rw [hs] at h; cases h; rfl
  | reference s ps =>
    simp only [Api.call] at h
    cases hr : Api.reference s ps with
    | error e => rw [hr] at h; cases h
    | ok b => rw [hr] at h; cases h; rfl
  | apply s tp =>
    simp only [Api.call] at h
    cases hr : tp.run with
    | error e => rw [hr] at h; cases h
    | ok t =>
      rw [hr] at h
      rw [(apply_touches (tp := tp) h (.local' []) (by rintro ⟨_, _, _, _, _, _, h, _⟩; cases h)).2]
      rfl
  | metaData k' v =>
    cases h
    simp only [ModelBuilder.metaData, AMap.get_insert, sets]
    by_cases hk : k' = k <;> simp [hk]
  | metaDataFrom m =>
    cases h
    rw [(metaDataFrom_shapes mb m).2 (hw m rfl)]
    rfl

/-- C94: the version, the namespace and the metadata of the builder are those given; for each key the last. -/
theorem C94_metadata (v : Version) (ns : Str) (cs : List Api.Call) (mb : ModelBuilder) (hrun : Api.run v ns cs = .ok mb)
    (hw : ∀ m, Api.Call.metaDataFrom m ∈ cs → AMap.Wf m) :
    mb.version = v ∧ mb.defaultNs = ns ∧ IsNamespace ns ∧ ∀ k, AMap.get mb.metadata k = lastOf (sets k) cs := by
  induction cs using List.reverseRecOn generalizing mb with
  | nil =>
    obtain ⟨h, rfl⟩ := run_nil hrun
    exact ⟨rfl, rfl, h, fun k => rfl⟩
  | append_singleton cs c ih =>
    obtain ⟨mb0, hr, hc⟩ := run_append hrun
    obtain ⟨h1, h2, h3, h4⟩ := ih mb0 hr fun m hm => hw m (by simp [hm])
    obtain ⟨r1, r2⟩ := call_rest hc
    refine ⟨r1.trans h1, r2.trans h2, h3, fun k => ?_⟩
    rw [call_metadata hc (fun m hm => hw m (by simp [hm])), h4, lastOf_concat]

theorem call_outcome (mb : ModelBuilder) (c : Api.Call) (hc : ∀ s t, c ≠ .apply s t) : Outcome (fun _ => Allowed c) (¬ Allowed c) (Api.call mb c) := by
  cases c with
  | shape p => exact (shape_decides p).bind (fun b hb => .ok (.declares (.shape hb))) fun hb h => hb (by cases h with | declares h => cases h with | shape h => exact ⟨_, h⟩)
  | uses s =>
    simp only [Api.call, ModelBuilder.uses]
    cases hs : ShapeID.fromStr s with
    | ok id => exact .ok (.declares (.uses hs))
    | error e => exact .panic fun h => by cases h with | declares h => cases h with | uses h => rw [hs] at h; cases h
  | reference s ps =>
    refine Outcome.bind (G := fun _ => Allowed (.reference s ps)) (B := ¬ Allowed (.reference s ps)) ?_ (fun b hb => .ok hb) id
    unfold Api.reference
    refine (idArg_outcome s).bind (fun id hid => ?_) fun hb h => hb (by cases h with | declares h => cases h with | reference h _ => exact ⟨_, h⟩)
    exact (collect_decides trait_decides ps).bind (fun ts hts => .ok (.declares (.reference hid hts)))
      fun hb h => hb (by cases h with | declares h => cases h with | reference _ h => exact ⟨_, h⟩)
  | apply s t => exact absurd rfl (hc s t)
  | metaData k v => exact .ok .metaData
  | metaDataFrom m => exact .ok .metaDataFrom

theorem declares_shape {p : Api.ShapeProgram} {n : ShapeName} {b : Builder} (h : Declares (.shape p) n b) : ShapeMakes p b := by
  cases h with | shape h => exact h

theorem bodyMakes_reference {p : Api.BodyProgram} (h : BodyMakes p .reference) : False := by
  cases h

theorem startMakes_unique {s : Api.TraitStart} {t t' : TraitBuilder} (h : StartMakes s t) (h' : StartMakes s t') : t = t' := by
  have hn : ∀ {x n n'}, Names x n → Names x n' → n = n' := fun a b => Except.ok.inj (((names_iff _ _).mpr a).symm.trans ((names_iff _ _).mpr b))
  cases h with
  | new h => cases h' with | new h' => rw [hn h h']
  | annotation h => cases h' with | annotation h' => rw [hn h h']
  | withValue h => cases h' with | withValue h' => rw [hn h h']
  | prelude h => cases h' with | prelude h' => exact Except.ok.inj (h.symm.trans h')

theorem setTo_unique {c : TraitBuilder.Setter} {v v' : Value} (h : SetTo c v) (h' : SetTo c v') : v = v' := by
  cases h <;> cases h' <;> rfl

theorem traitMakes_unique {p : Api.TraitProgram} {t t' : TraitBuilder} (h : TraitMakes p t) (h' : TraitMakes p t') : t = t' := by
  obtain ⟨s, cs⟩ := p
  generalize hp : (⟨s, cs⟩ : Api.TraitProgram) = p at h
  generalize hp' : (⟨s, cs⟩ : Api.TraitProgram) = p' at h'
  cases h with
  | plain h =>
    cases hp
    cases h' with
    | plain h' => cases hp'; exact startMakes_unique h h'
    | @setTo s' t' cs' c' v' h' hv => cases congrArg Api.TraitProgram.start hp'; have := congrArg Api.TraitProgram.setters hp'; simp at this
  | @setTo s1 t1 cs1 c1 v1 h hv =>
    cases congrArg Api.TraitProgram.start hp
    have e := congrArg Api.TraitProgram.setters hp
    simp only at e
    cases h' with
    | plain h' => have := congrArg Api.TraitProgram.setters hp'; simp only at this; rw [this] at e; simp at e
    | @setTo s' t' cs' c' v' h' hv' =>
      cases congrArg Api.TraitProgram.start hp'
      have e' := congrArg Api.TraitProgram.setters hp'
      simp only at e'
      rw [e] at e'
      obtain ⟨-, e'⟩ := List.append_inj' e' rfl
      cases e'
      rw [startMakes_unique h h', setTo_unique hv hv']

theorem applied_qualified (mb : ModelBuilder) (id : ShapeID) (t : TraitBuilder) :
    Outcome (Applied mb id false t) (¬ ∃ mb', Applied mb id false t mb') (mb.applyToQualified id t) := by
  change Outcome _ _ (mb.applyTo (.qualified id) t)
  cases hid : id.member with
  | none =>
    obtain ⟨mb', b, h1, h2, h3⟩ := C44_apply_to_shape mb id hid t
    rw [h1]
    rcases h3 with ⟨old, ho, rfl⟩ | ⟨ho, rfl⟩
    · exact .ok (.shape hid rfl ho h2)
    · exact .ok (.imported hid (.inr ho) h2)
  | some k =>
    obtain ⟨h1, h2, h3⟩ := C44_apply_to_member mb id k hid t
    cases hx : mb.applyTo (.qualified id) t with
    | ok mb' =>
      obtain ⟨old, body, ho, hb, hc⟩ := h1 mb' hx
      exact .ok (.member hid ho hb hc)
    | error e =>
      cases h3 e hx
      refine .panic ?_
      rintro ⟨mb', ha⟩
      have : ∃ mb', mb.applyTo (.qualified id) t = .ok mb' := by
        refine h2 ?_
        cases ha with
        | shape h _ _ _ => rw [hid] at h; cases h
        | imported h _ _ => rw [hid] at h; cases h
        | member h ho hb _ => rw [hid] at h; cases h; exact ⟨_, ho, hb.hasMember⟩
      obtain ⟨_, h⟩ := this
      rw [hx] at h; cases h

theorem applied_fresh (mb : ModelBuilder) (id : ShapeID) (hid : id.member = none) (t : TraitBuilder) :
    ∃ mb', (mb.insert ⟨.qualified id, [], .reference⟩).applyToQualified id t = .ok mb' ∧ Applied mb id true t mb' := by
  obtain ⟨mb', b, h1, ⟨e1, e2, e3, e4, e5⟩, h3⟩ := C44_apply_to_shape (mb.insert ⟨.qualified id, [], .reference⟩) id hid t
  refine ⟨mb', h1, .imported hid (.inl rfl) ⟨e1, e2, e3, ?_, ?_⟩⟩
  · rw [e4]
    rcases h3 with ⟨old, ho, rfl⟩ | ⟨ho, rfl⟩
    · rw [get_insert_name, if_pos rfl] at ho; cases ho; rfl
    · rfl
  · intro n' hn
    rw [e5 n' hn, get_insert_name, if_neg fun h => hn h.symm]

theorem stands_unique {mb : ModelBuilder} (hwf : WfBuilder mb) {n : ShapeName} {id id' : ShapeID} {new new' : Bool} (h : Stands mb n id new)
    (h' : Stands mb n id' new') : id = id' ∧ new = new' := by
  cases h with
  | absolute => cases h'; exact ⟨rfl, rfl⟩
  | relative h =>
    cases h' with
    | relative h' =>
      have h1 := (resolveShapeName_iff hwf _ _ _ _).mpr h
      have h2 := (resolveShapeName_iff hwf _ _ _ _).mpr h'
      rw [h1] at h2; cases h2; exact ⟨rfl, rfl⟩

theorem applyTo_outcome (mb : ModelBuilder) (hwf : WfBuilder mb) (n : ShapeName) (t : TraitBuilder) :
    Outcome (fun mb' => ∃ id new, Stands mb n id new ∧ Applied mb id new t mb') (¬ ∃ mb' id new, Stands mb n id new ∧ Applied mb id new t mb')
      (mb.applyTo n t) := by
  cases n with
  | qualified id =>
    refine (applied_qualified mb id t).mono (fun mb' h => ⟨id, false, .absolute, h⟩) fun hb h => hb ?_
    obtain ⟨mb', id', new', hs, ha⟩ := h
    cases hs
    exact ⟨mb', ha⟩
  | local' l =>
    simp only [ModelBuilder.applyTo]
    cases hr : mb.resolveShapeName (.local' l) false with
    | error e =>
      refine .panic ?_
      rintro ⟨mb', id', new', hs, ha⟩
      cases hs with
      | relative h => rw [(resolveShapeName_iff hwf _ _ _ _).mpr h] at hr; cases hr
    | ok r =>
      obtain ⟨id, new⟩ := r
      have hst : Stands mb (.local' l) id new := .relative ((resolveShapeName_iff hwf _ _ _ _).mp hr)
      cases new with
      | false =>
        refine (applied_qualified mb id t).mono (fun mb' h => ⟨id, false, hst, h⟩) fun hb h => hb ?_
        obtain ⟨mb', id', new', hs, ha⟩ := h
        obtain ⟨rfl, rfl⟩ := stands_unique hwf hst hs
        exact ⟨mb', ha⟩
      | true =>
        have hid : id.member = none := by
          have := (resolveShapeName_iff hwf _ _ _ _).mp hr
          generalize hn : ShapeName.local' l = n at this
          generalize hb : true = b at this
          cases this with
          | unknown _ _ _ => rfl
          | _ => cases hb
        obtain ⟨mb', h1, h2⟩ := applied_fresh mb id hid t
        simp only [if_true]
        rw [h1]
        exact .ok ⟨id, true, hst, h2⟩

theorem insert_changes (mb : ModelBuilder) (b : Builder) : EntryChanged mb (mb.insert b) b.name b :=
  ⟨rfl, rfl, rfl, by rw [get_insert_name, if_pos rfl], fun n' hn => by rw [get_insert_name, if_neg fun h => hn h.symm]⟩

/-- What a call of any kind does, and that it panics if there is nothing it could do. -/
theorem call_does (mb : ModelBuilder) (hwf : WfBuilder mb) (c : Api.Call) (hm : ∀ m, c = .metaDataFrom m → AMap.Wf m) :
    Decides (Does mb c) (Api.call mb c) := by
  cases c with
  | shape p =>
    exact (shape_decides p).bind (fun b hb => .ok (.declares (.shape hb) (insert_changes mb b))) fun hb ⟨mb', h⟩ => hb (by
      cases h with | declares h _ => exact ⟨_, declares_shape h⟩)
  | uses s =>
    simp only [Api.call, ModelBuilder.uses]
    cases hs : ShapeID.fromStr s with
    | ok id => exact .ok (.declares (.uses hs) (insert_changes mb _))
    | error e => exact .panic fun ⟨mb', h⟩ => by cases h with | declares h _ => cases h with | uses h => rw [hs] at h; cases h
  | reference s ps =>
    have key : Decides (fun b => ∃ n, Declares (.reference s ps) n b ∧ b.name = n) (Api.reference s ps) := by
      unfold Api.reference
      refine (idArg_outcome s).bind (fun id hid => ?_) fun hb ⟨b, n, h, _⟩ => hb (by cases h with | reference h _ => exact ⟨_, h⟩)
      exact (collect_decides trait_decides ps).bind (fun ts hts => .ok ⟨_, .reference hid hts, rfl⟩)
        fun hb ⟨b, n, h, _⟩ => hb (by cases h with | reference _ h => exact ⟨_, h⟩)
    refine key.bind (fun b hb => ?_) fun hb ⟨mb', h⟩ => hb ?_
    · obtain ⟨n, hd, rfl⟩ := hb
      exact .ok (.declares hd (insert_changes mb b))
    · cases h with
      | declares h _ =>
        cases h with
        | reference h1 h2 => exact ⟨_, _, .reference h1 h2, rfl⟩
  | apply s tp =>
    refine (trait_decides tp).bind (fun t ht => ?_) fun hb ⟨mb', h⟩ => hb (by cases h with | declares h _ => cases h | apply _ h _ _ => exact ⟨_, h⟩)
    have huniq : ∀ t', TraitMakes tp t' → t' = t := fun t' ht' => traitMakes_unique ht' ht
    unfold ModelBuilder.apply
    cases hs : ShapeName.fromStr s with
    | error e =>
      refine .panic fun ⟨mb', h⟩ => ?_
      cases h with
      | declares h _ => cases h
      | apply hn _ _ _ => rw [(names_iff _ _).mpr hn] at hs; cases hs
    | ok n =>
      have hn := (names_iff _ _).mp hs
      refine (applyTo_outcome mb hwf n t).mono (fun mb' h => ?_) fun hb h => hb ?_
      · obtain ⟨id, new, h1, h2⟩ := h
        exact .apply hn ht h1 h2
      · obtain ⟨mb', h⟩ := h
        cases h with
        | declares h _ => cases h
        | apply hn' ht' hst ha =>
          cases huniq _ ht'
          rw [(names_iff _ _).mpr hn'] at hs; cases hs
          exact ⟨mb', _, _, hst, ha⟩
  | metaData k v =>
    refine .ok (.metaData rfl rfl rfl fun k' => ?_)
    simp only [ModelBuilder.metaData, AMap.get_insert, eq_comm]
  | metaDataFrom m =>
    obtain ⟨h1, h2⟩ := metaDataFrom_shapes mb m
    obtain ⟨r1, r2⟩ := call_rest (show Api.call mb (.metaDataFrom m) = .ok (Api.metaDataFrom mb m) from rfl)
    exact .ok (.metaDataFrom r1 r2 h1 (h2 (hm m rfl)))

/-- C94: each call of a program, coming after any others, does what it says; it panics exactly if there is nothing that it could do. -/
theorem C94_calls (v : Version) (ns : Str) (cs : List Api.Call) (hargs : ∀ c ∈ cs, CallArgs c) (mb : ModelBuilder) (hrun : Api.run v ns cs = .ok mb)
    (c : Api.Call) (hm : ∀ m, c = .metaDataFrom m → AMap.Wf m) :
    (∀ mb', Api.run v ns (cs ++ [c]) = .ok mb' → Does mb c mb') ∧ ((∃ mb', Api.run v ns (cs ++ [c]) = .ok mb') ↔ ∃ mb', Does mb c mb') ∧
    ∀ e, Api.run v ns (cs ++ [c]) = .error e → e = .panic := by
  have h := call_does mb (run_ok v ns cs hargs mb hrun).1.wf c hm
  have he : Api.run v ns (cs ++ [c]) = Api.call mb c := by
    unfold Api.run at hrun ⊢
    cases hn : ModelBuilder.new v ns with
    | error e => rw [hn] at hrun; cases hrun
    | ok m0 =>
      rw [hn] at hrun
      change eachArg Api.call m0 cs = _ at hrun
      change eachArg Api.call m0 (cs ++ [c]) = _
      rw [eachArg_concat, hrun]
      rfl
  rw [he]
  generalize Api.call mb c = x at h
  cases h with
  | ok h => exact ⟨fun mb' he => (by cases he; exact h), ⟨fun _ => ⟨_, h⟩, fun _ => ⟨_, rfl⟩⟩, fun e he => by cases he⟩
  | panic h => exact ⟨fun mb' he => (by cases he), ⟨fun h' => (by obtain ⟨_, hm⟩ := h'; cases hm), fun ha => absurd ha h⟩, fun e he => by cases he; rfl⟩

/-- C94: whatever the program, the methods of the builder fail only by panicking. -/
theorem C94_panics (v : Version) (ns : Str) (cs : List Api.Call) (hargs : ∀ c ∈ cs, CallArgs c) (hw : ∀ m, Api.Call.metaDataFrom m ∈ cs → AMap.Wf m)
    (e : Err) (h : Api.run v ns cs = .error e) : e = .panic := by
  induction cs using List.reverseRecOn generalizing e with
  | nil =>
    unfold Api.run ModelBuilder.new NamespaceID.fromStr at h
    split at h
    · cases h
    · cases h; rfl
  | append_singleton cs c ih =>
    cases hr : Api.run v ns cs with
    | error e' =>
      obtain rfl := ih (fun c hc => hargs c (by simp [hc])) (fun m hm => hw m (by simp [hm])) e' hr
      have : Api.run v ns (cs ++ [c]) = .error .panic := by
        unfold Api.run at hr ⊢
        cases hn : ModelBuilder.new v ns with
        | error e => rw [hn] at hr; cases hr; rfl
        | ok m0 =>
          rw [hn] at hr
          change eachArg Api.call m0 cs = _ at hr
          change eachArg Api.call m0 (cs ++ [c]) = _
          rw [eachArg_concat, hr]
          rfl
      rw [this] at h; cases h; rfl
    | ok mb =>
      exact (C94_calls v ns cs (fun c hc => hargs c (by simp [hc])) mb hr c fun m hm => hw m (by simp [hm])).2.2 e h

/-- C94 is violated: a shape that was declared under its absolute id is lost when a trait is applied to it by its name alone: only an import is left. -/
theorem C94_apply_forgets (v : Version) (ns : Str) (cs : List Api.Call) (hargs : ∀ c ∈ cs, CallArgs c) (mb : ModelBuilder)
    (hrun : Api.run v ns cs = .ok mb) (l : Str) (hl : IsIdentifier l) (himp : ∀ id, ¬ Imports mb l id) (hloc : ¬ DefinedLocally mb l)
    (hpre : ¬ InPrelude false l) (tp : Api.TraitProgram) (t : TraitBuilder) (ht : TraitMakes tp t) :
    ∃ mb', Api.run v ns (cs ++ [.apply l tp]) = .ok mb' ∧
      mb'.shapes.get (.qualified ⟨ns, l, none⟩) = some ⟨.qualified ⟨ns, l, none⟩, [t], .reference⟩ := by
  have hns : mb.defaultNs = ns := by
    have : ∀ (cs : List Api.Call) mb, Api.run v ns cs = .ok mb → mb.defaultNs = ns := by
      intro cs
      induction cs using List.reverseRecOn with
      | nil => intro mb h; obtain ⟨-, rfl⟩ := run_nil h; rfl
      | append_singleton cs c ih =>
        intro mb h
        obtain ⟨mb0, hr, hc⟩ := run_append h
        exact (call_rest hc).2.trans (ih mb0 hr)
    exact this cs mb hrun
  have hwf := (run_ok v ns cs hargs mb hrun).1.wf
  obtain ⟨h1, h2, -⟩ := C94_calls v ns cs hargs mb hrun (.apply l tp) (by intro m h; cases h)
  have hst : Stands mb (.local' l) ⟨ns, l, none⟩ true := by rw [← hns]; exact .relative (.unknown himp hloc hpre)
  obtain ⟨mb0, -, hap⟩ := applied_fresh mb ⟨ns, l, none⟩ rfl t
  obtain ⟨mb', hmb'⟩ := h2.mpr ⟨mb0, .apply (.relative hl) ht hst hap⟩
  refine ⟨mb', hmb', ?_⟩
  have hd := h1 mb' hmb'
  cases hd with
  | declares h _ => cases h
  | apply hn ht' hst' ha =>
    have := Except.ok.inj (((names_iff _ _).mpr hn).symm.trans ((names_iff _ _).mpr (.relative hl)))
    subst this
    obtain ⟨rfl, rfl⟩ := stands_unique hwf hst hst'
    rw [traitMakes_unique ht ht']
    cases ha with
    | shape _ h _ _ => cases h
    | imported _ _ h => exact h.entry
    | member h _ _ _ => cases h

/-- The declaration of the structure is lost. -/
example : ∃ mb mb', Api.run .v10 %s"ex" [.shape ⟨%s"ex#S", .struct [.simple .string %s"a"], []⟩] = .ok mb ∧
    (AMap.get mb.shapes (.qualified ⟨%s"ex", %s"S", none⟩)).isSome = true ∧
    Api.run .v10 %s"ex" [.shape ⟨%s"ex#S", .struct [.simple .string %s"a"], []⟩, .apply %s"S" ⟨.annotation %s"sensitive", []⟩] = .ok mb' ∧
    mb'.shapes = [(.qualified ⟨%s"ex", %s"S", none⟩, ⟨.qualified ⟨%s"ex", %s"S", none⟩, [⟨.local' %s"sensitive", some (.object [])⟩], .reference⟩)] :=
  ⟨_, _, rfl, rfl, rfl, rfl⟩

/-- C94: a program without calls that apply traits panics exactly if the namespace is none or an argument of a call is not what the method asks for. -/
theorem C94_runs (v : Version) (ns : Str) (cs : List Api.Call) (hcs : ∀ c ∈ cs, ∀ s t, c ≠ .apply s t) :
    ((∃ mb, Api.run v ns cs = .ok mb) ↔ IsNamespace ns ∧ ∀ c ∈ cs, Allowed c) ∧ ∀ e, Api.run v ns cs = .error e → e = .panic := by
  have hall : Outcome (fun _ => IsNamespace ns ∧ ∀ c ∈ cs, Allowed c) (¬ (IsNamespace ns ∧ ∀ c ∈ cs, Allowed c)) (Api.run v ns cs) := by
    unfold Api.run
    refine Outcome.bind (G := fun _ => IsNamespace ns) (B := ¬ IsNamespace ns) ?_ (fun mb hn => ?_) fun hb h => hb h.1
    · unfold ModelBuilder.new NamespaceID.fromStr
      by_cases h : isNamespace ns = true
      · rw [if_pos h]; exact .ok ((isNamespace_iff _).mp h)
      · rw [if_neg h]; exact .panic fun hi => h ((isNamespace_iff _).mpr hi)
    · induction cs generalizing mb with
      | nil => exact .ok ⟨hn, by simp⟩
      | cons c cs ih =>
        have h1 := call_outcome mb c (hcs c (by simp))
        simp only [eachArg]
        cases hr : Api.call mb c with
        | error e =>
          rw [hr] at h1
          cases h1 with
          | panic hb => exact .panic fun h => hb (h.2 c (by simp))
        | ok mb' =>
          rw [hr] at h1
          cases h1 with
          | ok ha =>
            refine (ih (fun c hc => hcs c (by simp [hc])) mb').mono (fun _ h => ⟨hn, ?_⟩) fun hb h => hb ⟨hn, fun c hc => h.2 c (by simp [hc])⟩
            intro d hd
            rcases List.mem_cons.mp hd with rfl | hd
            · exact ha
            · exact h.2 d hd
  generalize Api.run v ns cs = x at hall
  cases hall with
  | ok h => exact ⟨⟨fun _ => h, fun _ => ⟨_, rfl⟩⟩, fun e he => by cases he⟩
  | panic h => exact ⟨⟨fun h' => (by obtain ⟨_, hm⟩ := h'; cases hm), fun ha => absurd ha h⟩, fun e he => by cases he; rfl⟩

/-- C94: a shape declared by its name alone, when nothing else in the program has that name (ignoring case), is in the model that is built, under that
name in the namespace of the model, with everything the last declaration says: `ShapeMakes` is what it says, and `BuildsShape` that names stand for ids. -/
theorem C94_model (v : Version) (ns : Str) (cs : List Api.Call) (hargs : ∀ c ∈ cs, CallArgs c) (mb : ModelBuilder) (hrun : Api.run v ns cs = .ok mb)
    (enum : List ShapeID → List ShapeID) (he : Enumerates enum) (m : Model) (hb : mb.build enum = .ok m)
    (pre post : List Api.Call) (p : Api.ShapeProgram) (hcs : cs = pre ++ .shape p :: post) (hname : IsIdentifier p.name)
    (hlast : ∀ c ∈ post, ∀ b, ¬ Declares c (.local' p.name) b)
    (hother : ∀ c ∈ cs, ∀ id, SameName id.name p.name → (∀ b, ¬ Declares c (.qualified id) b) ∧ ¬ Touches c (.qualified id)) :
    ∃ b s, ShapeMakes p b ∧ m.shape ⟨ns, p.name, none⟩ = some s ∧ BuildsShape mb b s ∧ s.id = ⟨ns, p.name, none⟩ := by
  have hwf := (run_ok v ns cs hargs mb hrun).1.wf
  have hns : mb.defaultNs = ns := by
    have : ∀ (cs : List Api.Call) mb, Api.run v ns cs = .ok mb → mb.defaultNs = ns := by
      intro cs
      induction cs using List.reverseRecOn with
      | nil => intro mb h; obtain ⟨-, rfl⟩ := run_nil h; rfl
      | append_singleton cs c ih =>
        intro mb h
        obtain ⟨mb0, hr, hc⟩ := run_append h
        exact (call_rest hc).2.trans (ih mb0 hr)
    exact this cs mb hrun
  have hnotouch : ∀ c n', Touches c n' → ∃ id, n' = .qualified id := by
    rintro c n' ⟨_, _, _, id, _, _, h, _⟩; exact ⟨id, h⟩
  have hmade : ∃ b, ShapeMakes p b := by
    have hd := shape_decides p
    have hrun' : ∃ mb0, Api.run v ns (pre ++ [.shape p]) = .ok mb0 := by
      have : ∀ (post : List Api.Call) (xs : List Api.Call) mb, Api.run v ns (xs ++ post) = .ok mb → ∃ mb0, Api.run v ns xs = .ok mb0 := by
        intro post
        induction post using List.reverseRecOn with
        | nil => intro xs mb h; exact ⟨mb, by simpa using h⟩
        | append_singleton post x ih =>
          intro xs mb h
          rw [← List.append_assoc] at h
          obtain ⟨mb0, h0, -⟩ := run_append h
          exact ih xs mb0 h0
      refine this post (pre ++ [.shape p]) mb ?_
      rw [← hrun, hcs]
      simp
    obtain ⟨mb0, h0⟩ := hrun'
    obtain ⟨mb1, -, hc⟩ := run_append h0
    simp only [Api.call] at hc
    cases hr : p.run with
    | error e => rw [hr] at hc; cases hc
    | ok b =>
      rw [hr] at hd
      cases hd with
      | ok h => exact ⟨b, h⟩
  have hnm : ∀ b, ShapeMakes p b → b.name = .local' p.name := by
    intro b hb
    exact Except.ok.inj (((names_iff _ _).mpr hb.name).symm.trans ((names_iff _ _).mpr (.relative hname)))
  obtain ⟨e1, -, -⟩ := C94_entries v ns cs mb hrun (.local' p.name)
  obtain ⟨b, hd, hget⟩ := e1 pre (.shape p) post hcs (by obtain ⟨b, hb⟩ := hmade; exact ⟨b, hnm b hb ▸ .shape hb⟩)
    fun c hc => ⟨hlast c hc, fun ht => by obtain ⟨id, h⟩ := hnotouch _ _ ht; cases h⟩
  have hmk : ShapeMakes p b := declares_shape hd
  have hnoq : ∀ id, SameName id.name p.name → AMap.get mb.shapes (.qualified id) = none := by
    intro id hid
    exact (C94_entries v ns cs mb hrun (.qualified id)).2.1 fun c hc => hother c hc id hid
  have himp : ∀ id, ¬ Imports mb p.name id := by
    rintro id ⟨b', hb', -, hs⟩
    rw [hnoq id hs] at hb'
    cases hb'
  have hloc : DefinedLocally mb p.name := ⟨b, hget⟩
  have hbody : b.body ≠ .reference := by
    have := hmk.body
    intro hr
    rw [hr] at this
    exact bodyMakes_reference this
  have htar : Target mb (.local' p.name) ⟨ns, p.name, none⟩ := ⟨false, by rw [← hns]; exact .defined himp hloc⟩
  obtain ⟨s, hs, hbs⟩ := C25_entry_built mb hwf enum he m hb (.local' p.name) b ⟨ns, p.name, none⟩ hget (.inr ⟨hbody, by rw [hnm b hmk]; exact htar⟩) (.inl rfl) (by
    intro n' b' hg' hid'
    cases n' with
    | qualified id =>
      have hq : id.name = p.name ∨ False := by
        rcases hid' with ⟨-, h⟩ | ⟨-, new, h⟩
        · rw [hwf.key _ _ hg'] at h; cases h; exact .inl rfl
        · rw [hwf.key _ _ hg'] at h; cases h; exact .inl rfl
      rcases hq with hq | hq
      · rw [hnoq id (congrArg lower hq)] at hg'; cases hg'
      · exact hq.elim
    | local' l =>
      rcases hid' with ⟨-, h⟩ | ⟨-, new, h⟩
      · rw [hwf.key _ _ hg'] at h; cases h
      · rw [hwf.key _ _ hg'] at h
        generalize hx : (⟨ns, p.name, none⟩ : ShapeID) = x at h
        cases h with
        | imported h _ =>
          subst hx
          obtain ⟨b'', hb'', -, -⟩ := h
          rw [hnoq ⟨ns, p.name, none⟩ (congrArg lower rfl)] at hb''; cases hb''
        | defined _ _ => cases hx; rfl
        | prelude _ _ _ => cases hx; rfl
        | unknown _ _ _ => cases hx; rfl)
  exact ⟨b, s, hmk, hs, hbs, (C25_built_model mb hwf enum he m hb).1.key _ _ hs⟩

/-! ### A concrete case -/

def exContent : List Api.Call :=
  [.metaData %s"k" (.string %s"old"), .uses %s"other#T", .shape ⟨%s"S", .struct [.member %s"a" %s"T", .simple .string %s"b"], [⟨.annotation %s"sensitive", []⟩]⟩,
   .metaData %s"k" (.string %s"new")]

example : ∃ mb m, Api.run .v10 %s"ex" exContent = .ok mb ∧ mb.build (fun l => l.eraseDups) = .ok m ∧ (∀ c ∈ exContent, CallArgs c) ∧
    (∀ c ∈ exContent, ∀ id, SameName id.name %s"S" → (∀ b, ¬ Declares c (.qualified id) b) ∧ ¬ Touches c (.qualified id)) := by
  refine ⟨_, _, rfl, rfl, ?_, ?_⟩
  · intro c hc
    simp only [exContent, List.mem_cons, List.not_mem_nil, or_false] at hc
    rcases hc with rfl | rfl | rfl | rfl
    · exact .string
    · exact trivial
    · refine ⟨?_, ?_⟩
      · intro s hs
        simp only [List.mem_cons, List.not_mem_nil, or_false] at hs
        rcases hs with hs | hs <;> cases hs
      · intro t ht
        simp only [List.mem_cons, List.not_mem_nil, or_false] at ht
        subst ht
        exact ⟨fun id v h => (by cases h), fun f h => (by cases h), by simp⟩
    · exact .string
  · intro c hc id hid
    simp only [exContent, List.mem_cons, List.not_mem_nil, or_false] at hc
    rcases hc with rfl | rfl | rfl | rfl
    · exact ⟨fun b hb => (by cases hb), fun ⟨_, _, _, _, h, _⟩ => (by cases h)⟩
    · refine ⟨fun b hb => ?_, fun ⟨_, _, _, _, h, _⟩ => (by cases h)⟩
      cases hb with
      | uses h =>
        have : id = ⟨%s"other", %s"T", none⟩ := (Except.ok.inj h).symm
        subst this
        exact absurd hid (by unfold SameName; decide)
    · refine ⟨fun b hb => ?_, fun ⟨_, _, _, _, h, _⟩ => (by cases h)⟩
      generalize hn : ShapeName.qualified id = n at hb
      have h1 := (declares_shape hb).name
      cases hb with
      | shape h =>
        have := ((names_iff _ _).mpr h.name)
        rw [← hn] at this
        cases this
    · exact ⟨fun b hb => (by cases hb), fun ⟨_, _, _, _, h, _⟩ => (by cases h)⟩

end Verif
