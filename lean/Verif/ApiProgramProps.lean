/-
C66: the models that programs of the builder API make.
-/
import Verif.ApiProgram
import Verif.ShapeBuildersProps
import Verif.IdlImage
import Verif.JsonProps

namespace Verif
open Spec IdlParser

/-! ### Well-formed arguments: what the types of Rust guarantee of values -/

namespace Spec

/-- The values given in the program are values (the integers are `i64`, no object has a key twice). -/
structure TraitArgs (p : Api.TraitProgram) : Prop where
  start : ∀ id v, p.start = .withValue id v → v.Wf
  fn : ∀ f, p.start = .prelude f → ArgsWf f
  setters : ∀ s ∈ p.setters, s.toValue.Wf

/-- The values given in the program are values. -/
def MemberArgs (p : Api.MemberProgram) : Prop := ∀ t ∈ p.traits, TraitArgs t

/-- The values given in the program are values. -/
def BodyArgs : Api.BodyProgram → Prop
  | .list _ ms | .set _ ms => ∀ m ∈ ms, MemberArgs m
  | .map _ _ ks vs => (∀ m ∈ ks, MemberArgs m) ∧ ∀ m ∈ vs, MemberArgs m
  | .struct steps | .union steps => ∀ m, .addMember m ∈ steps → MemberArgs m
  | _ => True

/-- The values given in the program are values. -/
def CallArgs : Api.Call → Prop
  | .shape p => BodyArgs p.body ∧ ∀ t ∈ p.traits, TraitArgs t
  | .uses _ => True
  | .reference _ ts => ∀ t ∈ ts, TraitArgs t
  | .apply _ t => TraitArgs t
  | .metaData _ v => v.Wf
  | .metaDataFrom m => ∀ e ∈ m, e.2.Wf

/-- The call does not import the member of a shape. -/
def ImportsShape : Api.Call → Prop
  | .uses s | .reference s _ => '$' ∉ s
  | _ => True

end Spec

/-! ### Valid builders -/

/-- A trait builder with a valid name. -/
structure TraitOk (t : TraitBuilder) : Prop where
  name : GoodName t.name
  value : ∀ v, t.value = some v → v.Wf

/-- A member builder with a valid name and a valid target. -/
structure MemberOk (m : MemberBuilder) : Prop where
  name : IsIdentifier m.name
  target : GoodName m.target
  traits : ∀ t ∈ m.traits, TraitOk t

/-- The part of a shape builder specific to its kind, with valid names. -/
structure BodyOk (b : BuilderBody) : Prop where
  members : ∀ m ∈ memberBuilders b, MemberOk m
  targets : ∀ n ∈ targetNames b, GoodName n
  maps : BodyMapsWf b
  renames : ∀ v o r ren, b = .service v o r ren → ∀ e ∈ ren, e.1.Valid ∧ IsIdentifier e.2
  identifiers : ∀ ids c p r u d l o co rs, b = .resource ids c p r u d l o co rs → ∀ e ∈ ids, IsIdentifier e.1

/-- A shape builder with valid names. -/
structure BuilderOk (b : Builder) : Prop where
  name : GoodName b.name
  traits : ∀ t ∈ b.traits, TraitOk t
  body : BodyOk b.body
  reference : b.body = .reference → ∃ id, b.name = .qualified id

theorem traitsWf_of_ok {ts : List TraitBuilder} (h : ∀ t ∈ ts, TraitOk t) : TraitsWf ts := fun t v ht hv => (h t ht).value v hv

theorem BuilderOk.legal {b : Builder} (h : BuilderOk b) : LegalBuilder b :=
  ⟨h.reference, h.body.maps, traitsWf_of_ok h.traits, fun m hm => traitsWf_of_ok (h.body.members m hm).traits⟩

/-! ### Each part of a program makes valid builders -/

theorem unwrap_ident_yields (s : Str) : Yields (fun n => n = s ∧ IsIdentifier s) (unwrap (Identifier.fromStr s)) := by
  intro n hn
  have h := identArg_outcome s
  rw [hn] at h
  cases h with
  | ok h => exact h

theorem unwrap_id_yields (s : Str) : Yields (fun id => ShapeID.fromStr s = .ok id ∧ id.Valid) (unwrap (ShapeID.fromStr s)) := by
  intro n hn
  have h := idArg_outcome s
  rw [hn] at h
  cases h with
  | ok h => exact ⟨h, (ShapeID.of_fromStr h).1⟩

theorem nameArg_yields (s : Str) : Yields GoodName (nameArg s) := unwrap_yields (nameFromStr_yields s)

theorem names_good {s : Str} {n : ShapeName} (h : Names s n) : GoodName n := nameFromStr_yields s n ((names_iff s n).mpr h)

theorem collect_concat {A B : Type} (f : A → Except Err B) (as : List A) (a : A) :
    Api.collect f (as ++ [a]) = (Api.collect f as >>= fun bs => f a >>= fun b => .ok (bs ++ [b])) := eachArg_concat _ _ _ _

theorem collect_yields {A B : Type} {f : A → Except Err B} {P : B → Prop} : ∀ as : List A, (∀ a ∈ as, Yields P (f a)) →
    Yields (fun bs => ∀ b ∈ bs, P b) (Api.collect f as) := by
  intro as
  induction as using List.reverseRecOn with
  | nil => intro _; exact .ok (by simp)
  | append_singleton as a ih =>
    intro h
    rw [collect_concat]
    refine (ih fun x hx => h x (by simp [hx])).bind fun bs hbs => (h a (by simp)).bind fun b hb => .ok ?_
    intro x hx
    rcases List.mem_append.mp hx with hx | hx
    · exact hbs x hx
    · rw [List.mem_singleton.mp hx]; exact hb

theorem eachArg_yields {S A : Type} {f : S → A → Except Err S} {P : S → Prop} : ∀ as : List A, (∀ s a, a ∈ as → P s → Yields P (f s a)) →
    ∀ s, P s → Yields P (eachArg f s as) := by
  intro as
  induction as with
  | nil => intro _ s hs; exact .ok hs
  | cons a as ih =>
    intro h s hs
    unfold eachArg
    have h1 := h s a (by simp) hs
    split
    · exact .error
    · next s' hs' => exact ih (fun s a ha => h s a (by simp [ha])) s' (h1 _ hs')

theorem traitNew_yields (id : Str) : Yields TraitOk (TraitBuilder.new id) :=
  (nameArg_yields id).bind fun _ hn => .pure ⟨hn, by simp⟩

theorem traitAnnotation_yields (id : Str) : Yields TraitOk (TraitBuilder.annotation id) :=
  (nameArg_yields id).bind fun _ hn => .pure ⟨hn, by rintro v h; cases h; exact wfObj_nil⟩

theorem traitWithValue_yields {id : Str} {v : Value} (hv : v.Wf) : Yields TraitOk (TraitBuilder.withValue id v) :=
  (withValue_yields hv).mono fun t ht => ⟨ht.name, fun w hw => by obtain ⟨x, h1, h2⟩ := ht.value; rw [h1] at hw; cases hw; exact h2⟩

theorem traitFn_yields {f : TraitFn} (hf : ArgsWf f) : Yields TraitOk f.run := by
  have hb : ∀ n a b, Yields TraitOk (TraitFn.bounds n a b) := by
    intro n a b
    unfold TraitFn.bounds
    split
    · exact traitWithValue_yields (bounds_wf a b)
    · exact .error
  have hn : ∀ n s, Yields TraitOk (TraitFn.nonEmpty n s) := by
    intro n s
    unfold TraitFn.nonEmpty
    split
    · exact .error
    · exact traitWithValue_yields .string
  cases f with
  | deprecated m s => exact traitWithValue_yields (wfObj_optString (wfObj_optString wfObj_nil _ _) _ _)
  | documentation s => exact traitWithValue_yields .string
  | errorSource e => exact traitWithValue_yields .string
  | externalDocumentation m => exact traitWithValue_yields wfObj_strings
  | length a b => exact hb _ _ _
  | lengthMax n => exact hb _ _ _
  | lengthMin n => exact hb _ _ _
  | paginated i o t p =>
    exact traitWithValue_yields (wfObj_optString (wfObj_optString (wfObj_optString (wfObj_optString wfObj_nil _ _) _ _) _ _) _ _)
  | pattern s => exact hn _ _
  | range a b => exact hb _ _ _
  | rangeMax n => exact hb _ _ _
  | rangeMin n => exact hb _ _ _
  | references v =>
    simp only [TraitFn.run]
    split
    · exact traitWithValue_yields hf
    · exact .error
  | since s => exact hn _ _
  | tagged ts => exact traitWithValue_yields (.array fun v hv => by obtain ⟨s, -, rfl⟩ := List.mem_map.mp hv; exact .string)
  | title s => exact traitWithValue_yields .string
  | aTrait => exact traitNew_yields _
  | unstable => exact traitNew_yields _
  | _ => exact traitAnnotation_yields _

theorem traitProgram_yields {p : Api.TraitProgram} (hp : TraitArgs p) : Yields TraitOk p.run := by
  have h1 : Yields TraitOk (Api.TraitProgram.begin p.start) := by
    cases hs : p.start with
    | new id => exact traitNew_yields id
    | annotation id => exact traitAnnotation_yields id
    | withValue id v => exact traitWithValue_yields (hp.start id v hs)
    | «prelude» f => exact traitFn_yields (hp.fn f hs)
  refine h1.bind fun t ht => .pure ?_
  have : ∀ (ss : List TraitBuilder.Setter), (∀ s ∈ ss, s.toValue.Wf) → ∀ t, TraitOk t → TraitOk (ss.foldl TraitBuilder.set t) := by
    intro ss
    induction ss with
    | nil => intro _ t ht; exact ht
    | cons s ss ih =>
      intro h t ht
      exact ih (fun x hx => h x (by simp [hx])) _ ⟨ht.name, fun v hv => by cases hv; exact h s (by simp)⟩
  exact this _ hp.setters t ht

theorem traits_yields {ps : List Api.TraitProgram} (h : ∀ p ∈ ps, TraitArgs p) :
    Yields (fun ts => ∀ t ∈ ts, TraitOk t) (Api.collect Api.TraitProgram.run ps) := collect_yields ps fun p hp => traitProgram_yields (h p hp)

theorem memberNew_ok (n t : Str) : Yields (fun m => MemberOk m ∧ m.name = n) (MemberBuilder.new n t) := by
  refine (unwrap_ident_yields n).bind ?_
  rintro n' ⟨rfl, hn⟩
  exact (nameArg_yields t).bind fun tn ht => .pure ⟨⟨hn, ht, by simp⟩, rfl⟩

theorem preludeId_valid (k : Simple) : ShapeID.Valid ⟨preludeNs, k.preludeName, none⟩ :=
  ⟨(isNamespace_iff _).mp (show isNamespace preludeNs = true by decide), preludeName_ident k, by simp⟩

theorem memberProgram_yields {p : Api.MemberProgram} (hp : MemberArgs p) : Yields MemberOk p.run := by
  have h1 : Yields MemberOk (Api.MemberProgram.begin p.start) := by
    cases p.start with
    | new n t => exact (memberNew_ok n t).mono fun m hm => hm.1
    | simple k n =>
      refine (unwrap_ident_yields n).bind ?_
      rintro n' ⟨rfl, hn⟩
      exact .pure ⟨hn, preludeId_valid k, by simp⟩
  refine h1.bind fun m hm => (traits_yields hp).bind fun ts hts => .pure ⟨hm.name, hm.target, ?_⟩
  intro t ht
  rcases List.mem_append.mp ht with ht | ht
  · exact hm.traits t ht
  · exact hts t ht

theorem replaced_yields {m : MemberBuilder} (hm : MemberOk m) {ms : List Api.MemberProgram} (h : ∀ p ∈ ms, MemberArgs p) :
    Yields MemberOk (Api.replaced m ms) := by
  refine (collect_yields (P := MemberOk) ms fun p hp => memberProgram_yields (h p hp)).bind fun bs hbs => .pure ?_
  have : ∀ (bs : List MemberBuilder), (∀ b ∈ bs, MemberOk b) → ∀ m, MemberOk m → MemberOk (bs.foldl (fun _ m => m) m) := by
    intro bs
    induction bs with
    | nil => intro _ m hm; exact hm
    | cons b bs ih => intro h m _; exact ih (fun x hx => h x (by simp [hx])) b (h b (by simp))
  exact this bs hbs m hm

theorem listMember_yields {t : Str} {ms : List Api.MemberProgram} (h : ∀ p ∈ ms, MemberArgs p) : Yields MemberOk (Api.BodyProgram.listMember t ms) :=
  (memberNew_ok _ t).bind fun _ hm => replaced_yields hm.1 h

theorem structMembers_yields {steps : List Api.StructStep} (h : ∀ m, .addMember m ∈ steps → MemberArgs m) :
    Yields (fun ms => ∀ m ∈ ms, MemberOk m) (Api.BodyProgram.structMembers steps) := by
  have h1 : Yields (fun cs => ∀ c ∈ cs, ∀ m, c = .addMember m → MemberOk m) (Api.collect Api.StructStep.run steps) := by
    refine collect_yields steps fun c hc => ?_
    cases c with
    | member n t => exact .ok (by simp)
    | simple k n => exact .ok (by simp)
    | addMember m => exact (memberProgram_yields (h m hc)).bind fun b hb => .pure (by rintro x h; cases h; exact hb)
  refine h1.bind fun cs hcs => ?_
  intro ms hms m hm
  obtain ⟨c, hc, ha⟩ := (listRel_split ((C65_structure cs).1 ms hms)).2 m hm
  cases ha with
  | member hn ht => exact ⟨hn, names_good ht, by simp⟩
  | addMember => exact hcs _ hc m rfl
  | simple hn => exact ⟨hn, preludeName_ident _, by simp⟩

theorem listRel_good {ss : List Str} {ns : List ShapeName} (h : ListRel Names ss ns) : ∀ n ∈ ns, GoodName n := by
  intro n hn
  obtain ⟨s, -, hs⟩ := (listRel_split h).2 n hn
  exact names_good hs

theorem optRel_good {s : Option Str} {n : Option ShapeName} (h : OptRel Names s n) : ∀ x ∈ n.toList, GoodName x := by
  cases h with
  | none => simp
  | some h => simpa using names_good h

theorem lastOf_some {C A : Type} {arg : C → Option A} {cs : List C} {a : A} (h : lastOf arg cs = some a) : ∃ c ∈ cs, arg c = some a := by
  induction cs with
  | nil => cases h
  | cons c cs ih =>
    simp only [lastOf] at h
    cases hl : lastOf arg cs with
    | some b => rw [hl] at h; cases h; obtain ⟨d, hd, he⟩ := ih hl; exact ⟨d, by simp [hd], he⟩
    | none => rw [hl] at h; exact ⟨c, by simp, by simpa using h⟩

theorem bodyProgram_yields {p : Api.BodyProgram} (hp : BodyArgs p) : Yields (fun b => BodyOk b ∧ b ≠ .reference) p.run := by
  have none : ∀ {b : BuilderBody}, (∀ m ∈ memberBuilders b, MemberOk m) → targetNames b = [] → BodyMapsWf b → (∀ v o r ren, b ≠ .service v o r ren) →
      (∀ ids c p r u d l o co rs, b ≠ .resource ids c p r u d l o co rs) → BodyOk b := by
    intro b h1 h2 h3 h4 h5
    exact ⟨h1, by rw [h2]; simp, h3, fun v o r ren he => absurd he (h4 v o r ren), fun _ _ _ _ _ _ _ _ _ _ he => absurd he (h5 _ _ _ _ _ _ _ _ _ _)⟩
  cases p with
  | simple k => exact .ok ⟨none (by simp [memberBuilders]) rfl trivial (by simp) (by simp), by simp⟩
  | list t ms => exact (listMember_yields hp).bind fun m hm => .pure ⟨none (by simpa [memberBuilders] using hm) rfl trivial (by simp) (by simp), by simp⟩
  | set t ms => exact (listMember_yields hp).bind fun m hm => .pure ⟨none (by simpa [memberBuilders] using hm) rfl trivial (by simp) (by simp), by simp⟩
  | map k v ks vs =>
    refine (memberNew_ok _ k).bind fun k hk => (memberNew_ok _ v).bind fun v hv => (replaced_yields hk.1 hp.1).bind fun k hk =>
      (replaced_yields hv.1 hp.2).bind fun v hv => .pure ⟨none ?_ rfl trivial (by simp) (by simp), by simp⟩
    simp only [memberBuilders, List.mem_cons, List.not_mem_nil, or_false, forall_eq_or_imp, forall_eq]
    exact ⟨hk, hv⟩
  | struct steps => exact (structMembers_yields hp).bind fun ms hm => .pure ⟨none hm rfl trivial (by simp) (by simp), by simp⟩
  | union steps => exact (structMembers_yields hp).bind fun ms hm => .pure ⟨none hm rfl trivial (by simp) (by simp), by simp⟩
  | service v cs =>
    have h1 : Yields (fun f => ServiceSays v cs f ∧ ∀ c ∈ cs, ServiceCall.Ok c) (ServiceFields.run v cs) :=
      fun f hf => ⟨(C65_service v cs).1 f hf, (C65_service v cs).2.1.mp ⟨f, hf⟩⟩
    refine h1.bind fun f ⟨hf, hok⟩ => .pure ⟨⟨by simp [memberBuilders, ServiceFields.body], ?_, hf.nodup, ?_, by simp [ServiceFields.body]⟩, by simp [ServiceFields.body]⟩
    · intro n hn
      rcases List.mem_append.mp hn with hn | hn
      · exact listRel_good hf.operations n hn
      · exact listRel_good hf.resources n hn
    · intro v' o r ren he e hm
      cases he
      have hg := AMap.get_of_mem hf.nodup (k := e.1) (v := e.2) hm
      rw [hf.renames] at hg
      obtain ⟨c, hc, ha⟩ := lastOf_some hg
      cases c with
      | rename i n =>
        simp only at ha
        split at ha
        · next hi => cases ha; exact ⟨(ShapeID.of_fromStr hi).1, (hok _ hc).2⟩
        · cases ha
      | _ => cases ha
  | operation cs =>
    have h1 : Yields (OperationSays cs) (OperationFields.run cs) := fun f hf => (C65_operation cs).1 f hf
    refine h1.bind fun f hf => .pure ⟨⟨by simp [memberBuilders, OperationFields.body], ?_, trivial, by simp [OperationFields.body], by simp [OperationFields.body]⟩,
      by simp [OperationFields.body]⟩
    intro n hn
    simp only [OperationFields.body, targetNames, List.mem_append] at hn
    rcases hn with (hn | hn) | hn
    · exact optRel_good hf.input n hn
    · exact optRel_good hf.output n hn
    · exact listRel_good hf.errors n hn
  | resource cs =>
    have h1 : Yields (fun f => ResourceSays cs f ∧ ∀ c ∈ cs, ResourceCall.Ok c) (ResourceFields.run cs) :=
      fun f hf => ⟨(C65_resource cs).1 f hf, (C65_resource cs).2.1.mp ⟨f, hf⟩⟩
    refine h1.bind fun f ⟨hf, hok⟩ => .pure ⟨⟨by simp [memberBuilders], ?_, hf.nodup, by simp, ?_⟩, by simp⟩
    · intro n hn
      simp only [targetNames, List.mem_append, List.mem_map] at hn
      rcases hn with ((((((((⟨e, he, rfl⟩ | hn) | hn) | hn) | hn) | hn) | hn) | hn) | hn) | hn
      · have hg := AMap.get_of_mem hf.nodup (k := e.1) (v := e.2) he
        have := hf.identifiers e.1
        rw [hg] at this
        generalize lastOf _ cs = o at this
        cases this with | some h => exact names_good h
      · exact optRel_good hf.create n hn
      · exact optRel_good hf.put n hn
      · exact optRel_good hf.read n hn
      · exact optRel_good hf.update n hn
      · exact optRel_good hf.delete n hn
      · exact optRel_good hf.list n hn
      · exact listRel_good hf.operations n hn
      · exact listRel_good hf.collectionOperations n hn
      · exact listRel_good hf.resources n hn
    · intro ids c p r u d l o co rs he e hm
      cases he
      have hg := AMap.get_of_mem hf.nodup (k := e.1) (v := e.2) hm
      have := hf.identifiers e.1
      rw [hg] at this
      generalize hl : lastOf _ cs = o at this
      cases this with
      | some h =>
        obtain ⟨c, hc, ha⟩ := lastOf_some hl
        cases c with
        | identifier n s =>
          simp only at ha
          split at ha
          · next hi => rw [← hi]; exact (hok _ hc).1
          · cases ha
        | _ => cases ha

theorem shapeProgram_yields {p : Api.ShapeProgram} (hb : BodyArgs p.body) (ht : ∀ t ∈ p.traits, TraitArgs t) :
    Yields (fun b => BuilderOk b ∧ b.body ≠ .reference) p.run :=
  (nameArg_yields p.name).bind fun _ hn => (bodyProgram_yields hb).bind fun _ hbody => (traits_yields ht).bind fun _ hts =>
    .pure ⟨⟨hn, hts, hbody.1, fun h => absurd h hbody.2⟩, hbody.2⟩

theorem reference_yields {s : Str} {ts : List Api.TraitProgram} (ht : ∀ t ∈ ts, TraitArgs t) :
    Yields (fun b => BuilderOk b ∧ ∃ id, ShapeID.fromStr s = .ok id ∧ b.name = .qualified id) (Api.reference s ts) :=
  (unwrap_id_yields s).bind fun id hid => (traits_yields ht).bind fun _ hts =>
    .pure ⟨⟨hid.2, hts, ⟨by simp [memberBuilders], by simp [targetNames], trivial, by simp, by simp⟩, fun _ => ⟨id, rfl⟩⟩, id, hid.1, rfl⟩

/-! ### The model builders that programs make -/

/-- A model builder with valid names. -/
structure ReachOk (mb : ModelBuilder) : Prop where
  wf : WfBuilder mb
  ns : IsNamespace mb.defaultNs
  entries : ∀ n b, mb.shapes.get n = some b → BuilderOk b

theorem reachOk_insert {mb : ModelBuilder} (h : ReachOk mb) {b : Builder} (hb : BuilderOk b) : ReachOk (mb.insert b) := by
  refine ⟨wfBuilder_insert h.wf hb.legal, h.ns, fun n b' hn => ?_⟩
  simp only [ModelBuilder.insert, AMap.get_insert] at hn
  split at hn
  · cases hn; exact hb
  · exact h.entries n b' hn

theorem noMember_insert {mb : ModelBuilder} (h : NoMemberImports mb) {b : Builder} (hb : ∀ id, b.body = .reference → b.name = .qualified id → id.member = none) :
    NoMemberImports (mb.insert b) := by
  intro id b' hn hr
  simp only [ModelBuilder.insert, AMap.get_insert] at hn
  split at hn
  · next he => cases hn; exact hb id hr he
  · exact h id b' hn hr

theorem referenceOk {id : ShapeID} (h : id.Valid) {ts : List TraitBuilder} (ht : ∀ t ∈ ts, TraitOk t) : BuilderOk ⟨.qualified id, ts, .reference⟩ :=
  ⟨h, ht, ⟨by simp [memberBuilders], by simp [targetNames], trivial, by simp, by simp⟩, fun _ => ⟨id, rfl⟩⟩

theorem imports_valid {mb : ModelBuilder} (h : ReachOk mb) {n : Str} {id : ShapeID} (hi : Imports mb n id) : id.Valid := by
  obtain ⟨b, h1, -, -⟩ := hi
  have := (h.entries _ _ h1).name
  rw [h.wf.key _ _ h1] at this
  exact this

theorem resolves_valid {mb : ModelBuilder} (h : ReachOk mb) {tr n id new} (hg : GoodName n) (hr : Resolves mb tr n id new) : id.Valid := by
  cases hr with
  | absolute hm => exact hg
  | imported hi _ => exact imports_valid h hi
  | defined => exact ⟨h.ns, hg, by simp⟩
  | «prelude» => exact ⟨(isNamespace_iff _).mp (show isNamespace %s"smithy.api" = true by decide), hg, by simp⟩
  | unknown => exact ⟨h.ns, hg, by simp⟩

theorem withTrait_ok {m : MemberBuilder} {t : TraitBuilder} (hm : MemberOk m) (ht : TraitOk t) : MemberOk (withTrait m t) :=
  ⟨hm.name, hm.target, fun x hx => by
    rcases List.mem_append.mp hx with hx | hx
    · exact hm.traits x hx
    · rw [List.mem_singleton.mp hx]; exact ht⟩

theorem memberApplied_ok {k : Str} {t : TraitBuilder} {b b' : BuilderBody} (h : MemberApplied k t b b') (ht : TraitOk t) (hb : BodyOk b) : BodyOk b' ∧ b' ≠ .reference := by
  have none : ∀ {b : BuilderBody}, (∀ m ∈ memberBuilders b, MemberOk m) → targetNames b = [] → BodyMapsWf b → (∀ v o r ren, b ≠ .service v o r ren) →
      (∀ ids c p r u d l o co rs, b ≠ .resource ids c p r u d l o co rs) → BodyOk b := by
    intro b h1 h2 h3 h4 h5
    exact ⟨h1, by rw [h2]; simp, h3, fun v o r ren he => absurd he (h4 v o r ren), fun _ _ _ _ _ _ _ _ _ _ he => absurd he (h5 _ _ _ _ _ _ _ _ _ _)⟩
  have hms := hb.members
  have hlist : ∀ (pre : List MemberBuilder) m post, (∀ x ∈ pre ++ m :: post, MemberOk x) → ∀ x ∈ pre ++ withTrait m t :: post, MemberOk x := by
    intro pre m post h x hx
    simp only [List.mem_append, List.mem_cons] at h hx
    rcases hx with hx | rfl | hx
    · exact h x (.inl hx)
    · exact withTrait_ok (h m (.inr (.inl rfl))) ht
    · exact h x (.inr (.inr hx))
  cases h with
  | list => exact ⟨none (by simpa [memberBuilders] using withTrait_ok (hms _ (by simp [memberBuilders])) ht) rfl trivial (by simp) (by simp), by simp⟩
  | set => exact ⟨none (by simpa [memberBuilders] using withTrait_ok (hms _ (by simp [memberBuilders])) ht) rfl trivial (by simp) (by simp), by simp⟩
  | mapKey => exact ⟨none (hlist [] _ [_] hms) rfl trivial (by simp) (by simp), by simp⟩
  | mapValue => exact ⟨none (hlist [_] _ [] hms) rfl trivial (by simp) (by simp), by simp⟩
  | struct => exact ⟨none (hlist _ _ _ hms) rfl trivial (by simp) (by simp), by simp⟩
  | union => exact ⟨none (hlist _ _ _ hms) rfl trivial (by simp) (by simp), by simp⟩

theorem applyToQualified_ok {mb mb' : ModelBuilder} (h : ReachOk mb) {id : ShapeID} (hid : id.Valid) {t : TraitBuilder} (ht : TraitOk t)
    (ha : mb.applyToQualified id t = .ok mb') : ReachOk mb' ∧ (NoMemberImports mb → NoMemberImports mb') := by
  have hw := wf_applyToQualified h.wf id ht.value ha
  have ha' : mb.applyTo (.qualified id) t = .ok mb' := ha
  have key : ∀ n b, EntryChanged mb mb' n b → BuilderOk b → (∀ i, n = .qualified i → b.body = .reference → i.member = none ∨ ∃ b0, mb.shapes.get n = some b0 ∧ b0.body = .reference) →
      ReachOk mb' ∧ (NoMemberImports mb → NoMemberImports mb') := by
    intro n b hc hb hr
    refine ⟨⟨hw, by rw [hc.defaultNs]; exact h.ns, fun n' b' hn' => ?_⟩, fun hm i b' hn' hb' => ?_⟩
    · by_cases hnn : n' = n
      · subst hnn; rw [hc.entry] at hn'; cases hn'; exact hb
      · rw [hc.others n' hnn] at hn'; exact h.entries n' b' hn'
    · by_cases hnn : .qualified i = n
      · subst hnn; rw [hc.entry] at hn'; cases hn'
        rcases hr i rfl hb' with hr | ⟨b0, h0, h1⟩
        · exact hr
        · exact hm i b0 h0 h1
      · rw [hc.others _ hnn] at hn'; exact hm i b' hn' hb'
  cases hm : id.member with
  | none =>
    obtain ⟨mb1, b, h1, hc, hb⟩ := C44_apply_to_shape mb id hm t
    rw [ha'] at h1; cases h1
    rcases hb with ⟨old, ho, rfl⟩ | ⟨_, rfl⟩
    · have hl := h.entries _ _ ho
      refine key _ _ hc ⟨hl.name, ?_, hl.body, hl.reference⟩ fun i _ hr => .inr ⟨old, ho, hr⟩
      intro x hx
      rcases List.mem_append.mp hx with hx | hx
      · exact hl.traits x hx
      · rw [List.mem_singleton.mp hx]; exact ht
    · refine key _ _ hc (referenceOk hid (by simpa using ht)) fun i hi _ => .inl ?_
      cases hi; exact hm
  | some k =>
    obtain ⟨old, body, ho, hap, hc⟩ := (C44_apply_to_member mb id k hm t).1 mb' ha'
    have hl := h.entries _ _ ho
    obtain ⟨h1, h2⟩ := memberApplied_ok hap ht hl.body
    exact key _ _ hc ⟨hl.name, hl.traits, h1, fun hr => absurd hr h2⟩ fun i _ hr => absurd hr h2

theorem apply_ok {mb mb' : ModelBuilder} (h : ReachOk mb) {s : Str} {t : TraitBuilder} (ht : TraitOk t) (ha : mb.apply s t = .ok mb') :
    ReachOk mb' ∧ (NoMemberImports mb → NoMemberImports mb') := by
  unfold ModelBuilder.apply at ha
  split at ha
  · cases ha
  · next n hn =>
    have hg := nameFromStr_yields s n hn
    cases n with
    | qualified id => exact applyToQualified_ok h hg ht ha
    | local' l =>
      simp only [ModelBuilder.applyTo] at ha
      split at ha
      · cases ha
      · next id new hres =>
        have hr := (resolveShapeName_iff h.wf false (.local' l) id new).mp hres
        have hid := resolves_valid h hg hr
        cases new with
        | false => exact applyToQualified_ok h hid ht ha
        | true =>
          have hm : id.member = none := by cases hr; rfl
          obtain ⟨h1, h2⟩ := applyToQualified_ok (reachOk_insert h (referenceOk hid (ts := []) (by simp))) hid ht ha
          exact ⟨h1, fun hno => h2 (noMember_insert hno fun i _ hi => by cases hi; exact hm)⟩

theorem metaDataFrom_ok {m : List (Str × Value)} : ∀ {mb : ModelBuilder}, ReachOk mb → (∀ e ∈ m, e.2.Wf) →
    ReachOk (Api.metaDataFrom mb m) ∧ (NoMemberImports mb → NoMemberImports (Api.metaDataFrom mb m)) := by
  induction m with
  | nil => intro mb h _; exact ⟨h, id⟩
  | cons e m ih =>
    obtain ⟨k, v⟩ := e
    intro mb h hv
    exact ih ⟨wfBuilder_metaData h.wf k (hv (k, v) (by simp)), h.ns, h.entries⟩ fun e he => hv e (by simp [he])

theorem display_dollar {s : Str} {id : ShapeID} (h : ShapeID.fromStr s = .ok id) (hs : '$' ∉ s) : id.member = none := by
  have := (ShapeID.of_fromStr h).2
  apply Classical.byContradiction
  intro hm
  obtain ⟨k, hk⟩ := Option.ne_none_iff_exists'.mp hm
  apply hs
  rw [← this]
  simp [ShapeID.display, hk]

theorem call_ok {mb : ModelBuilder} (h : ReachOk mb) {c : Api.Call} (hc : CallArgs c) :
    Yields (fun mb' => ReachOk mb' ∧ (ImportsShape c → NoMemberImports mb → NoMemberImports mb')) (Api.call mb c) := by
  cases c with
  | shape p =>
    refine (shapeProgram_yields hc.1 hc.2).bind fun b hb => .pure ⟨reachOk_insert h hb.1, fun _ hm => noMember_insert hm fun id hr => absurd hr hb.2⟩
  | uses s =>
    intro mb' hu
    simp only [Api.call, ModelBuilder.uses] at hu
    cases hs : unwrap (ShapeID.fromStr s) with
    | error e => rw [hs] at hu; cases hu
    | ok id =>
      rw [hs] at hu; cases hu
      obtain ⟨h1, h2⟩ := unwrap_id_yields s id hs
      exact ⟨reachOk_insert h (referenceOk h2 (by simp)), fun hd hm => noMember_insert hm fun i _ hi => by cases hi; exact display_dollar h1 hd⟩
  | reference s ts =>
    refine (reference_yields hc).bind ?_
    rintro b ⟨hb, id, h1, h2⟩
    exact .pure ⟨reachOk_insert h hb, fun hd hm => noMember_insert hm fun i _ hi => by rw [h2] at hi; cases hi; exact display_dollar h1 hd⟩
  | apply s t =>
    refine (traitProgram_yields hc).bind fun tb ht => ?_
    intro mb' ha
    obtain ⟨h1, h2⟩ := apply_ok h ht ha
    exact ⟨h1, fun _ => h2⟩
  | metaData k v => exact .ok ⟨⟨wfBuilder_metaData h.wf k hc, h.ns, h.entries⟩, fun _ hm => hm⟩
  | metaDataFrom m =>
    obtain ⟨h1, h2⟩ := metaDataFrom_ok h hc
    exact .ok ⟨h1, fun _ => h2⟩

theorem run_ok (v : Version) (ns : Str) (cs : List Api.Call) (hc : ∀ c ∈ cs, CallArgs c) :
    Yields (fun mb => ReachOk mb ∧ ((∀ c ∈ cs, ImportsShape c) → NoMemberImports mb)) (Api.run v ns cs) := by
  have h0 : Yields (fun mb => ReachOk mb ∧ ((∀ c ∈ cs, ImportsShape c) → NoMemberImports mb)) (ModelBuilder.new v ns) := by
    intro mb hmb
    unfold ModelBuilder.new NamespaceID.fromStr at hmb
    split at hmb
    · next h =>
      cases hmb
      exact ⟨⟨wfBuilder_new v ns, (isNamespace_iff _).mp h, fun _ _ h => by cases h⟩, fun _ _ _ h => by cases h⟩
    · cases hmb
  refine h0.bind fun mb hmb => eachArg_yields cs ?_ mb hmb
  intro mb c hm ⟨h1, h2⟩
  exact (call_ok h1 (hc c hm)).mono fun mb' ⟨h3, h4⟩ => ⟨h3, fun hall => h4 (hall c hm) (h2 hall)⟩

/-! ### The models that are built -/

/-- A shape with valid ids. -/
structure ValidShape (x : TopLevelShape) : Prop where
  id : x.id.Valid
  traits : ValidTraits x.traits
  kind : ValidKind x.body

section built
variable {mb : ModelBuilder} (h : ReachOk mb) (hno : NoMemberImports mb)
include h

theorem target_valid {n id} (hg : GoodName n) (hr : Target mb n id) : id.Valid := by
  obtain ⟨new, hr⟩ := hr
  exact resolves_valid h hg hr

theorem list_valid {l ids} (hg : ∀ n ∈ l, GoodName n) (hb : ListRel (Target mb) l ids) : ∀ id ∈ ids, id.Valid := by
  intro id hid
  obtain ⟨n, h1, h2⟩ := (listRel_split hb).2 id hid
  exact target_valid h (hg n h1) h2

theorem opt_valid {o o'} (hg : ∀ n ∈ o.toList, GoodName n) (hb : OptRel (Target mb) o o') : ∀ id, o' = some id → id.Valid := by
  rintro id rfl
  cases hb with
  | some hr => exact target_valid h (hg _ (by simp)) hr

include hno

theorem traits_valid {tbs ts} (hg : ∀ t ∈ tbs, TraitOk t) (hb : BuildsTraits mb tbs ts) : ValidTraits ts := by
  intro id v hv
  obtain ⟨pre, tb, post, rfl, h1, -, -⟩ := (hb.last id v).mp hv
  have hm := traitTarget_not_member hno h1
  obtain ⟨new, h1⟩ := h1
  refine ⟨resolves_valid h (hg tb (by simp)).name h1, ?_⟩
  simpa [ShapeID.isMember] using hm

theorem member_valid {b x} (hg : MemberOk b) (hb : BuildsMember mb b x) : ValidMember x :=
  ⟨target_valid h hg.target hb.target, traits_valid h hno hg.traits hb.traits⟩

theorem members_valid {bs ms} (hg : ∀ b ∈ bs, MemberOk b) (hb : BuildsMembers mb bs ms) :
    ∀ k x, AMap.get ms k = some x → IsIdentifier k ∧ ValidMember x := by
  intro k x hx
  have := hb.last k
  rw [hx] at this
  generalize hl : lastNamed bs k = o at this
  cases this with
  | some hm =>
    obtain ⟨h1, h2⟩ := mem_of_lastNamed hl
    exact ⟨h2 ▸ (hg _ h1).name, member_valid h hno (hg _ h1) hm⟩

theorem body_valid {b k} (hg : BodyOk b) (hv : ∀ v o r ren, b = .service v o r ren → v ≠ []) (hb : BuildsBody mb b k) : ValidKind k := by
  obtain ⟨hm, ht, -, hren, hids⟩ := hg
  cases hb with
  | simple => trivial
  | list hx => exact member_valid h hno (hm _ (by simp [memberBuilders])) hx
  | set hx => exact member_valid h hno (hm _ (by simp [memberBuilders])) hx
  | map hk hw => exact ⟨member_valid h hno (hm _ (by simp [memberBuilders])) hk, member_valid h hno (hm _ (by simp [memberBuilders])) hw⟩
  | struct hx => exact members_valid h hno hm hx
  | union hx => exact members_valid h hno hm hx
  | service h1 h2 h3 h4 =>
    refine ⟨hv _ _ _ _ rfl, list_valid h (fun n hn => ht n (by simp [targetNames, hn])) h1, list_valid h (fun n hn => ht n (by simp [targetNames, hn])) h2, ?_⟩
    intro id n hn
    have := h4 id
    simp only at hn
    rw [hn] at this
    generalize hl : AMap.get _ id = o at this
    cases this with
    | some he => subst he; exact hren _ _ _ _ rfl _ (AMap.mem_of_get hl)
  | operation h1 h2 h3 =>
    exact ⟨opt_valid h (fun n hn => ht n (by simp only [targetNames, List.mem_append]; exact .inl (.inl hn))) h1,
      opt_valid h (fun n hn => ht n (by simp only [targetNames, List.mem_append]; exact .inl (.inr hn))) h2,
      list_valid h (fun n hn => ht n (by simp only [targetNames, List.mem_append]; exact .inr hn)) h3⟩
  | resource h1 h2 h3 h4 h5 h6 h7 h8 h9 h10 h11 =>
    simp only [targetNames, List.mem_append, List.mem_map] at ht
    refine ⟨?_, ?_, list_valid h (fun n hn => ht n (by simp [hn])) h9, list_valid h (fun n hn => ht n (by simp [hn])) h10,
      list_valid h (fun n hn => ht n (by simp [hn])) h11⟩
    · intro k id hid
      have := h2 k
      simp only at hid
      rw [hid] at this
      generalize hl : AMap.get _ k = o at this
      cases this with
      | some hr =>
        have hmem := AMap.mem_of_get hl
        exact ⟨hids _ _ _ _ _ _ _ _ _ _ rfl _ hmem, target_valid h (ht _ (by
          refine .inl (.inl (.inl (.inl (.inl (.inl (.inl (.inl (.inl ⟨_, hmem, rfl⟩)))))))))) hr⟩
    · intro l id hl
      cases l
      · exact opt_valid h (fun n hn => ht n (by simp only [hn]; simp)) h3 id hl
      · exact opt_valid h (fun n hn => ht n (by simp only [hn]; simp)) h4 id hl
      · exact opt_valid h (fun n hn => ht n (by simp only [hn]; simp)) h5 id hl
      · exact opt_valid h (fun n hn => ht n (by simp only [hn]; simp)) h6 id hl
      · exact opt_valid h (fun n hn => ht n (by simp only [hn]; simp)) h7 id hl
      · exact opt_valid h (fun n hn => ht n (by simp only [hn]; simp)) h8 id hl
  | reference => trivial

theorem shape_valid {n b x} (hb : mb.shapes.get n = some b) (hg : Buildable mb b) (hx : BuildsShape mb b x) : ValidShape x := by
  have hok := h.entries n b hb
  refine ⟨?_, traits_valid h hno hok.traits hx.traits, body_valid h hno hok.body hg.version hx.body⟩
  rcases hx.id with ⟨-, h3⟩ | ⟨-, h3⟩
  · have := hok.name; rw [h3] at this; exact this
  · exact target_valid h hok.name h3

end built

theorem validTraits_insert {ts : Traits} (h : ValidTraits ts) {id : ShapeID} {v : TraitValue} (hid : id.Valid ∧ id.member = none) : ValidTraits (AMap.insert ts id v) := by
  intro i w hw
  rw [AMap.get_insert] at hw
  split at hw
  · next he => cases hw; rw [← he]; exact hid
  · exact h i w hw

theorem validTraits_append {l : Traits} (hl : ∀ e ∈ l, e.1.Valid ∧ e.1.member = none) : ∀ ts, ValidTraits ts → ValidTraits (appendTraits ts l).1 := by
  induction l with
  | nil => intro ts h; exact h
  | cons e l ih =>
    obtain ⟨id, v⟩ := e
    intro ts h
    have h1 := hl (id, v) (by simp)
    have key : ValidTraits (applyWithValue ts id v).1 := by
      unfold applyWithValue
      split
      · exact h
      · split
        · split
          · exact validTraits_insert h h1
          · exact h
        · exact validTraits_insert h h1
    unfold appendTraits
    split
    · next ts' he => rw [he] at key; exact ih (fun e he => hl e (by simp [he])) _ key
    · next ts' e he => rw [he] at key; exact key

theorem reconcile_valid {a b : TopLevelShape} (ha : ValidShape a) (hb : ValidShape b) (hw : AMap.Wf b.traits) : ValidShape (Model.reconcile a b).1 := by
  obtain ⟨h1, h2, h3⟩ := reconcile_frame a b
  refine ⟨by rw [h1]; exact ha.id, ?_, ?_⟩
  · rcases h3 with h3 | h3
    · rw [h3]; exact ha.traits
    · rw [h3]
      exact validTraits_append (fun e he => hb.traits e.1 e.2 (AMap.get_of_mem hw he)) _ ha.traits
  · rcases h2 with h2 | ⟨-, h2⟩
    · rw [h2]; exact ha.kind
    · rw [h2]; exact hb.kind

theorem slot_valid (L : List TopLevelShape) (hL : ∀ x ∈ L, ValidShape x ∧ AMap.Wf x.traits) : ∀ o, (∀ x, o = some x → ValidShape x) →
    ∀ x, L.foldl slotStep o = some x → ValidShape x := by
  induction L with
  | nil => intro o ho x hx; exact ho x hx
  | cons y L ih =>
    intro o ho x hx
    refine ih (fun z hz => hL z (by simp [hz])) (slotStep o y) ?_ x hx
    intro z hz
    obtain ⟨hy, hw⟩ := hL y (by simp)
    by_cases ha : Admissible y
    · rw [slotStep_admissible ha] at hz
      cases o with
      | none => cases hz; exact hy
      | some e => cases hz; exact reconcile_valid (ho e rfl) hy hw
    · rw [slotStep_not_admissible ha] at hz; exact ho z hz

theorem mentions_valid {b : Builder} (hb : BuilderOk b) {tr : Bool} {n : ShapeName} (hm : Mentions b tr n) : GoodName n := by
  cases hm with
  | name => exact hb.name
  | trait ht => exact (hb.traits _ ht).name
  | memberTarget hm => exact (hb.body.members _ hm).target
  | memberTrait hm ht => exact ((hb.body.members _ hm).traits _ ht).name
  | target hn => exact hb.body.targets _ hn

theorem build_valid {mb : ModelBuilder} (h : ReachOk mb) (hno : NoMemberImports mb) {enum : List ShapeID → List ShapeID} (he : Enumerates enum) {m : Model}
    (hb : mb.build enum = .ok m) : ValidModel m := by
  obtain ⟨ss, gs, h1, h2, h3, h4⟩ := build_parts h.wf he hb
  have hall : ∀ x ∈ ss ++ gs.map fun id => TopLevelShape.new id .unresolved, ValidShape x ∧ AMap.Wf x.traits := by
    intro x hx
    rcases List.mem_append.mp hx with hx | hx
    · obtain ⟨b, hb', hs'⟩ := (listRel_split h1).2 x hx
      have hb' := (mem_values h.wf).mp hb'
      exact ⟨shape_valid h hno hb' (h3 _ _ hb') hs', hs'.traits.nodup⟩
    · obtain ⟨id, hid, rfl⟩ := List.mem_map.mp hx
      obtain ⟨n, b, tr, k, hb, hm, hr⟩ := (h2 id).mp hid
      exact ⟨⟨resolves_valid h (mentions_valid (h.entries n b hb) hm) hr, (by intro _ _ h; cases h), trivial⟩, AMap.wf_nil⟩
  have hw := (C25_built_model mb h.wf enum he m hb).1
  intro id x hx
  have hid : x.id = id := hw.key id x hx
  rw [addAllIgnoring_slot h4 id, start_shape] at hx
  have hv := slot_valid _ (fun y hy => hall y (List.mem_filter.mp hy).1) none (by simp) x hx
  exact ⟨hid ▸ hv.id, hv.traits, hv.kind⟩

/-! ### C66 -/

/-- C66: whatever program of calls makes the builder, a model built from it is well-formed. -/
theorem C66_well_formed (v : Version) (ns : Str) (cs : List Api.Call) (hargs : ∀ c ∈ cs, CallArgs c)
    (mb : ModelBuilder) (hrun : Api.run v ns cs = .ok mb) (enum : List ShapeID → List ShapeID) (he : Enumerates enum) (m : Model)
    (hb : mb.build enum = .ok m) : WfModel m :=
  (C25_built_model mb (run_ok v ns cs hargs mb hrun).1.wf enum he m hb).1

/-- C66: whatever program of calls makes the builder, a model built from it is well-formed and all its identifiers are
valid, provided no call imports the member of a shape. -/
theorem C66_valid (v : Version) (ns : Str) (cs : List Api.Call) (hargs : ∀ c ∈ cs, CallArgs c) (himp : ∀ c ∈ cs, ImportsShape c)
    (mb : ModelBuilder) (hrun : Api.run v ns cs = .ok mb) (enum : List ShapeID → List ShapeID) (he : Enumerates enum) (m : Model)
    (hb : mb.build enum = .ok m) : WfModel m ∧ ValidModel m := by
  obtain ⟨h1, h2⟩ := run_ok v ns cs hargs mb hrun
  exact ⟨(C25_built_model mb h1.wf enum he m hb).1, build_valid h1 (h2 himp) he hb⟩

/-- C66: such a model, when its numbers are finite, can be written as JSON and read again, giving the model up to the
differences of C30. -/
theorem C66_round_trip (v : Version) (ns : Str) (cs : List Api.Call) (hargs : ∀ c ∈ cs, CallArgs c) (himp : ∀ c ∈ cs, ImportsShape c)
    (mb : ModelBuilder) (hrun : Api.run v ns cs = .ok mb) (enum : List ShapeID → List ShapeID) (he : Enumerates enum) (m : Model)
    (hb : mb.build enum = .ok m) (hf : FiniteModel m) :
    ∃ j m', JsonWriter.modelToJson m = .ok j ∧ JsonReader.model j = .ok m' ∧ SameModel (jsonNormal m) m' := by
  obtain ⟨hw, hv⟩ := C66_valid v ns cs hargs himp mb hrun enum he m hb
  exact C30_round_trip_changes m hw hv hf

/-! ### A program, and imports of members -/

/-- Api example: a list, a structure, an operation, a service and a resource, with traits. -/
def exProgram : List Api.Call :=
  [.uses (%s"other.ns#Thing"),
   .shape ⟨%s"Names", .list (%s"String") [], [⟨.prelude (.length (some 1) none), []⟩]⟩,
   .shape ⟨%s"Input", .struct [.member (%s"names") (%s"Names"), .simple .string (%s"label"),
      .addMember ⟨.simple .integer (%s"size"), [⟨.prelude .required, []⟩]⟩, .member (%s"thing") (%s"Thing")], []⟩,
   .shape ⟨%s"Get", .operation [.input (%s"Input"), .errors [%s"Oops"]], [⟨.prelude .readonly, []⟩]⟩,
   .shape ⟨%s"Svc", .service (%s"1.0") [.operation (%s"Get"), .rename (%s"other.ns#Thing") (%s"Other"), .resource (%s"Res")], []⟩,
   .shape ⟨%s"Res", .resource [.identifier (%s"id") (%s"String"), .read (%s"Get")], []⟩,
   .apply (%s"Names") ⟨.new (%s"documentation"), [.string (%s"the names")]⟩,
   .metaData (%s"key") (.number (.integer 7))]

theorem exProgram_args : (∀ c ∈ exProgram, CallArgs c) ∧ ∀ c ∈ exProgram, ImportsShape c := by
  have t0 : ∀ f, (∀ v, f ≠ .references v) → TraitArgs ⟨.prelude f, []⟩ := by
    intro f hf
    exact ⟨by simp, (by rintro g h; cases h; cases f <;> first | trivial | exact absurd rfl (hf _)), by simp⟩
  constructor
  · simp only [exProgram, List.mem_cons, List.not_mem_nil, or_false, forall_eq_or_imp, forall_eq, CallArgs, BodyArgs]
    refine ⟨trivial, ⟨by simp, t0 _ (by simp)⟩, ⟨?_, by simp⟩, ⟨trivial, t0 _ (by simp)⟩, ⟨trivial, by simp⟩, ⟨trivial, by simp⟩, ?_, .number (show i64 7 by unfold i64; omega)⟩
    · intro m hm
      simp only [reduceCtorEq, Api.StructStep.addMember.injEq, false_or, or_false] at hm
      subst hm
      simpa [MemberArgs] using t0 _ (by simp)
    · exact ⟨by simp, by simp, by simpa using .string⟩
  · simp only [exProgram, List.mem_cons, List.not_mem_nil, or_false, forall_eq_or_imp, forall_eq, ImportsShape]
    decide

set_option maxRecDepth 100000 in
/-- The example meets the hypotheses of `C66_valid`, and its model has seven shapes. -/
example : ∃ mb m, Api.run .v10 (%s"my.ns") exProgram = .ok mb ∧ mb.build enumFirst = .ok m ∧ m.shapes.length = 7 ∧ WfModel m ∧ ValidModel m := by
  refine ⟨_, _, rfl, rfl, rfl, ?_⟩
  exact C66_valid .v10 (%s"my.ns") exProgram exProgram_args.1 exProgram_args.2 _ rfl enumFirst enumFirst_enumerates _ rfl

/-- An import of a member, and a shape with a trait by the name of its shape. -/
def exMemberImport : List Api.Call :=
  [.uses (%s"other.ns#tag$inner"), .shape ⟨%s"S", .simple .string, [⟨.annotation (%s"tag"), []⟩]⟩]

set_option maxRecDepth 100000 in
/-- C66 is violated by imports of members, which nothing refuses: the model that is built has a trait whose name is the id
of a member; it can be written as JSON, but what has been written cannot be read. -/
theorem C66_member_import : (∀ c ∈ exMemberImport, CallArgs c) ∧ ∃ mb m j e, Api.run .v10 (%s"my.ns") exMemberImport = .ok mb ∧
    mb.build enumFirst = .ok m ∧ ¬ ValidModel m ∧ JsonWriter.modelToJson m = .ok j ∧ JsonReader.model j = .error e := by
  constructor
  · simp only [exMemberImport, List.mem_cons, List.not_mem_nil, or_false, forall_eq_or_imp, forall_eq, CallArgs, BodyArgs]
    exact ⟨trivial, trivial, by simp, by simp, by simp⟩
  · refine ⟨_, _, _, _, rfl, rfl, ?_, rfl, rfl⟩
    intro h
    have := ((h ⟨%s"my.ns", %s"S", none⟩ _ rfl).2.1 ⟨%s"other.ns", %s"tag", some (%s"inner")⟩ _ rfl).2
    cases this

/-! ### C64: the simple types of the prelude -/

theorem listRel_get {α β : Type} {R : α → β → Prop} {l : List α} {m : List β} (h : ListRel R l m) {i : Nat} {a : α} (ha : l[i]? = some a) :
    ∃ b, m[i]? = some b ∧ R a b := by
  obtain ⟨hl, hr⟩ := h
  have hi : i < m.length := by rw [← hl]; exact (List.getElem?_eq_some_iff.mp ha).1
  exact ⟨m[i], List.getElem?_eq_getElem hi, hr i a _ ha (List.getElem?_eq_getElem hi)⟩

/-- C64: the helpers of `MemberBuilder` for simple types make a member that targets the prelude shape of that type,
whatever the model builder it is added to. -/
theorem C64_member_helper (k : Simple) (n : Str) :
    (∀ b, MemberBuilder.simple k n = .ok b → b.name = n ∧ b.traits = [] ∧
      ∀ mb id, Target mb b.target id ↔ id = ⟨%s"smithy.api", k.preludeName, none⟩) ∧
    ((∃ b, MemberBuilder.simple k n = .ok b) ↔ IsIdentifier n) ∧
    k.preludeName ∈ preludeShapes ∧ lower k.preludeName = lower k.display := by
  have hout : Outcome (fun b => IsIdentifier n ∧ b = ⟨n, [], .qualified ⟨preludeNs, k.preludeName, none⟩⟩) (¬ IsIdentifier n) (MemberBuilder.simple k n) :=
    (identArg_outcome n).bind (by rintro n' ⟨rfl, h⟩; exact .ok ⟨h, rfl⟩) id
  obtain ⟨h1, h2, -⟩ := hout.three
  refine ⟨fun b hb => ?_, h2, by cases k <;> decide, by cases k <;> rfl⟩
  rw [h1 b hb]
  refine ⟨rfl, rfl, fun mb id => ⟨?_, ?_⟩⟩
  · rintro ⟨new, h⟩; cases h; rfl
  · rintro rfl; exact ⟨false, .absolute rfl⟩

/-- C64: the helpers of `StructureBuilder` make a member by the relative name of the prelude shape of that type. It targets a shape of
that name that is imported, if one is; else the shape of the model's namespace, if one of that name is defined; and only else the
prelude shape. -/
theorem C64_structure_helper (mb : ModelBuilder) (k : Simple) (cs : List StructCall) (ms : List MemberBuilder)
    (hm : StructureBuilder.members cs = .ok ms) (i : Nat) (n : Str) (hc : cs[i]? = some (.simple k n)) :
    ∃ b, ms[i]? = some b ∧ b.name = n ∧
      (∀ j, Imports mb k.preludeName j → ∀ id, Target mb b.target id ↔ Imports mb k.preludeName id ∧ ∀ j', Imports mb k.preludeName j' → j' = id) ∧
      ((∀ j, ¬ Imports mb k.preludeName j) → DefinedLocally mb k.preludeName →
        ∀ id, Target mb b.target id ↔ id = ⟨mb.defaultNs, k.preludeName, none⟩) ∧
      ((∀ j, ¬ Imports mb k.preludeName j) → ¬ DefinedLocally mb k.preludeName →
        ∀ id, Target mb b.target id ↔ id = ⟨%s"smithy.api", k.preludeName, none⟩) := by
  have hp : InPrelude false k.preludeName := by cases k <;> (unfold InPrelude; decide)
  obtain ⟨b, hb, ha⟩ := listRel_get ((C65_structure cs).1 ms hm) hc
  cases ha
  refine ⟨_, hb, rfl, fun j hj id => ⟨?_, ?_⟩, fun hi hd id => ⟨?_, ?_⟩, fun hi hd id => ⟨?_, ?_⟩⟩
  · rintro ⟨new, h⟩
    cases h with
    | imported h h' => exact ⟨h, fun j' hj' => h' j' hj'⟩
    | defined h _ => exact absurd hj (h _)
    | «prelude» h _ => exact absurd hj (h _)
    | unknown h _ _ => exact absurd hj (h _)
  · rintro ⟨h, h'⟩; exact ⟨false, .imported h h'⟩
  · rintro ⟨new, h⟩
    cases h with
    | imported h _ => exact absurd h (hi _)
    | defined _ h => rfl
    | «prelude» _ h => exact absurd hd h
    | unknown _ h => exact absurd hd h
  · rintro rfl; exact ⟨false, .defined hi hd⟩
  · rintro ⟨new, h⟩
    cases h with
    | imported h _ => exact absurd h (hi _)
    | defined _ h => exact absurd h hd
    | «prelude» => rfl
    | unknown _ _ h => exact absurd hp h
  · rintro rfl; exact ⟨false, .prelude hi hd hp⟩

set_option maxRecDepth 100000 in
/-- A program in which it happens: the two helpers for strings give members with different targets. -/
theorem C64_shadowed_program : ∃ mb m s a b, Api.run .v10 (%s"my.ns")
      [.shape ⟨%s"String", .struct [], []⟩,
       .shape ⟨%s"S", .struct [.simple .string (%s"a"), .addMember ⟨.simple .string (%s"b"), []⟩], []⟩] = .ok mb ∧
    mb.build enumFirst = .ok m ∧ m.shape ⟨%s"my.ns", %s"S", none⟩ = some ⟨⟨%s"my.ns", %s"S", none⟩, [], .struct s⟩ ∧
    AMap.get s (%s"a") = some a ∧ AMap.get s (%s"b") = some b ∧
    a.target = ⟨%s"my.ns", %s"String", none⟩ ∧ b.target = ⟨%s"smithy.api", %s"String", none⟩ := ⟨_, _, _, _, _, rfl, rfl, rfl, rfl, rfl, rfl, rfl⟩

end Verif
