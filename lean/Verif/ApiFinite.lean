/-
C66: the numbers of the models that programs of the builder API make.
-/
import Verif.ApiProgramProps

namespace Verif
open Spec

namespace Spec

/-- The value is an argument somewhere in the program of a trait. -/
def TraitGives (p : Api.TraitProgram) (v : Value) : Prop :=
  (∃ id, p.start = .withValue id v) ∨ p.start = .prelude (.references v) ∨ ∃ s ∈ p.setters, s.toValue = v

/-- The value is an argument somewhere in the program of a member. -/
def MemberGives (p : Api.MemberProgram) (v : Value) : Prop := ∃ t ∈ p.traits, TraitGives t v

/-- The value is an argument somewhere in the program of a shape. -/
def BodyGives (v : Value) : Api.BodyProgram → Prop
  | .list _ ms | .set _ ms => ∃ m ∈ ms, MemberGives m v
  | .map _ _ ks vs => ∃ m ∈ ks ++ vs, MemberGives m v
  | .struct steps | .union steps => ∃ m, .addMember m ∈ steps ∧ MemberGives m v
  | _ => False

/-- The value is an argument somewhere in the call. -/
def CallGives (v : Value) : Api.Call → Prop
  | .shape p => BodyGives v p.body ∨ ∃ t ∈ p.traits, TraitGives t v
  | .uses _ => False
  | .reference _ ts => ∃ t ∈ ts, TraitGives t v
  | .apply _ t => TraitGives t v
  | .metaData _ w => w = v
  | .metaDataFrom m => ∃ k, (k, v) ∈ m

end Spec

namespace ApiFin

abbrev Fin (v : Value) : Prop := ¬ NonFinite v

theorem fin_string (s : Str) : Fin (.string s) := by rintro ⟨⟩
theorem fin_int (n : Int) : Fin (.number (.integer n)) := by rintro ⟨⟩
theorem fin_array {vs : List Value} : Fin (.array vs) ↔ ∀ v ∈ vs, Fin v :=
  ⟨fun h v hv hn => h (.array hv hn), fun h hn => by cases hn with | array hv hn => exact h _ hv hn⟩
theorem fin_object {m : AMap Str Value} : Fin (.object m) ↔ ∀ e ∈ m, Fin e.2 :=
  ⟨fun h e hv hn => h (.object (k := e.1) hv hn), fun h hn => by cases hn with | object hv hn => exact h _ hv hn⟩
theorem fin_nil : Fin (.object []) := fin_object.mpr (by simp)

theorem mem_insert {K V : Type} [DecidableEq K] {m : AMap K V} {k : K} {v : V} {e : K × V} (h : e ∈ AMap.insert m k v) : e.2 = v ∨ e ∈ m := by
  induction m with
  | nil => simp only [AMap.insert, List.mem_singleton] at h; exact .inl (by rw [h])
  | cons x m ih =>
    obtain ⟨j, w⟩ := x
    simp only [AMap.insert] at h
    split at h
    · rcases List.mem_cons.mp h with h | h
      · exact .inl (by rw [h])
      · exact .inr (by simp [h])
    · rcases List.mem_cons.mp h with h | h
      · exact .inr (by simp [h])
      · rcases ih h with h | h
        · exact .inl h
        · exact .inr (by simp [h])

theorem fin_insert {m : AMap Str Value} (h : Fin (.object m)) {k : Str} {v : Value} (hv : Fin v) : Fin (.object (AMap.insert m k v)) := by
  rw [fin_object] at *
  intro e he
  rcases mem_insert he with h1 | h1
  · rw [h1]; exact hv
  · exact h e h1

theorem fin_optString {m : AMap Str Value} (h : Fin (.object m)) (k : Str) (s : Option Str) : Fin (.object (TraitFn.optString m k s)) := by
  cases s with
  | none => exact h
  | some s => exact fin_insert h (fin_string s)

theorem fin_optInteger {m : AMap Str Value} (h : Fin (.object m)) (k : Str) (s : Option Nat) : Fin (.object (TraitFn.optInteger m k s)) := by
  cases s with
  | none => exact h
  | some s => exact fin_insert h (fin_int _)

theorem fin_strings (l : List (Str × Str)) : Fin (.object (AMap.ofList (l.map fun e => (e.1, Value.string e.2)))) := by
  have : ∀ (l : List (Str × Str)) (m : AMap Str Value), Fin (.object m) →
      Fin (.object ((l.map fun e => (e.1, Value.string e.2)).foldl (fun m e => AMap.insert m e.1 e.2) m)) := by
    intro l
    induction l with
    | nil => intro m h; exact h
    | cons e l ih => intro m h; exact ih _ (fin_insert h (fin_string _))
  exact this l [] fin_nil

/-! ### Builders -/

def TraitFin (t : TraitBuilder) : Prop := ∀ v, t.value = some v → Fin v
def MemberFin (m : MemberBuilder) : Prop := ∀ t ∈ m.traits, TraitFin t
def BodyFin (b : BuilderBody) : Prop := ∀ m ∈ memberBuilders b, MemberFin m
def BuilderFin (b : Builder) : Prop := (∀ t ∈ b.traits, TraitFin t) ∧ BodyFin b.body

/-- The values of a model builder are finite. -/
structure ModelFin (mb : ModelBuilder) : Prop where
  entries : ∀ n b, mb.shapes.get n = some b → BuilderFin b
  metadata : ∀ k v, mb.metadata.get k = some v → Fin v

theorem new_yields (id : Str) : Yields TraitFin (TraitBuilder.new id) := (nameArg_yields id).bind fun _ _ => .pure fun v h => by cases h
theorem annotation_yields (id : Str) : Yields TraitFin (TraitBuilder.annotation id) :=
  (nameArg_yields id).bind fun _ _ => .pure fun v h => by cases h; exact fin_nil
theorem withValue_yields {id : Str} {v : Value} (hv : Fin v) : Yields TraitFin (TraitBuilder.withValue id v) :=
  (nameArg_yields id).bind fun _ _ => .pure fun w h => by cases h; exact hv

theorem traitFn_yields {f : TraitFn} (hf : ∀ v, f = .references v → Fin v) : Yields TraitFin f.run := by
  have hb : ∀ n a b, Yields TraitFin (TraitFn.bounds n a b) := by
    intro n a b
    unfold TraitFn.bounds
    split
    · exact withValue_yields (fin_optInteger (fin_optInteger fin_nil _ _) _ _)
    · exact .error
  have hn : ∀ n s, Yields TraitFin (TraitFn.nonEmpty n s) := by
    intro n s
    unfold TraitFn.nonEmpty
    split
    · exact .error
    · exact withValue_yields (fin_string _)
  cases f with
  | deprecated m s => exact withValue_yields (fin_optString (fin_optString fin_nil _ _) _ _)
  | documentation s => exact withValue_yields (fin_string _)
  | errorSource e => exact withValue_yields (fin_string _)
  | externalDocumentation m => exact withValue_yields (fin_strings m)
  | length a b => exact hb _ _ _
  | lengthMax n => exact hb _ _ _
  | lengthMin n => exact hb _ _ _
  | paginated i o t p => exact withValue_yields (fin_optString (fin_optString (fin_optString (fin_optString fin_nil _ _) _ _) _ _) _ _)
  | pattern s => exact hn _ _
  | range a b => exact hb _ _ _
  | rangeMax n => exact hb _ _ _
  | rangeMin n => exact hb _ _ _
  | references v =>
    simp only [TraitFn.run]
    split
    · exact withValue_yields (hf v rfl)
    · exact .error
  | since s => exact hn _ _
  | tagged ts => exact withValue_yields (fin_array.mpr fun v hv => by obtain ⟨s, -, rfl⟩ := List.mem_map.mp hv; exact fin_string s)
  | title s => exact withValue_yields (fin_string _)
  | aTrait => exact new_yields _
  | unstable => exact new_yields _
  | _ => exact annotation_yields _

theorem traitProgram_yields {p : Api.TraitProgram} (hp : ∀ v, TraitGives p v → Fin v) : Yields TraitFin p.run := by
  have h1 : Yields TraitFin (Api.TraitProgram.begin p.start) := by
    cases hs : p.start with
    | new id => exact new_yields id
    | annotation id => exact annotation_yields id
    | withValue id v => exact withValue_yields (hp v (.inl ⟨id, hs⟩))
    | «prelude» f => exact traitFn_yields fun v hv => hp v (.inr (.inl (by rw [hs, hv])))
  refine h1.bind fun t ht => .pure ?_
  have : ∀ (ss : List TraitBuilder.Setter), (∀ s ∈ ss, Fin s.toValue) → ∀ t, TraitFin t → TraitFin (ss.foldl TraitBuilder.set t) := by
    intro ss
    induction ss with
    | nil => intro _ t ht; exact ht
    | cons s ss ih =>
      intro h t ht
      exact ih (fun x hx => h x (by simp [hx])) _ (fun v hv => by cases hv; exact h s (by simp))
  exact this _ (fun s hs => hp _ (.inr (.inr ⟨s, hs, rfl⟩))) t ht

theorem traits_yields {ps : List Api.TraitProgram} (h : ∀ p ∈ ps, ∀ v, TraitGives p v → Fin v) :
    Yields (fun ts => ∀ t ∈ ts, TraitFin t) (Api.collect Api.TraitProgram.run ps) := collect_yields ps fun p hp => traitProgram_yields (h p hp)

theorem memberNew_yields (n t : Str) : Yields MemberFin (MemberBuilder.new n t) :=
  (unwrap_ident_yields n).bind fun _ _ => (nameArg_yields t).bind fun _ _ => .pure fun t ht => by cases ht

theorem memberProgram_yields {p : Api.MemberProgram} (hp : ∀ v, MemberGives p v → Fin v) : Yields MemberFin p.run := by
  have h1 : Yields MemberFin (Api.MemberProgram.begin p.start) := by
    cases p.start with
    | new n t => exact memberNew_yields n t
    | simple k n => exact (unwrap_ident_yields n).bind fun _ _ => .pure fun t ht => by cases ht
  refine h1.bind fun m hm => (traits_yields fun t ht v hv => hp v ⟨t, ht, hv⟩).bind fun ts hts => .pure ?_
  intro t ht
  rcases List.mem_append.mp ht with ht | ht
  · exact hm t ht
  · exact hts t ht

theorem replaced_yields {m : MemberBuilder} (hm : MemberFin m) {ms : List Api.MemberProgram} (h : ∀ p ∈ ms, ∀ v, MemberGives p v → Fin v) :
    Yields MemberFin (Api.replaced m ms) := by
  refine (collect_yields (P := MemberFin) ms fun p hp => memberProgram_yields (h p hp)).bind fun bs hbs => .pure ?_
  have : ∀ (bs : List MemberBuilder), (∀ b ∈ bs, MemberFin b) → ∀ m, MemberFin m → MemberFin (bs.foldl (fun _ m => m) m) := by
    intro bs
    induction bs with
    | nil => intro _ m hm; exact hm
    | cons b bs ih => intro h m _; exact ih (fun x hx => h x (by simp [hx])) b (h b (by simp))
  exact this bs hbs m hm

theorem structMembers_yields {steps : List Api.StructStep} (h : ∀ m, .addMember m ∈ steps → ∀ v, MemberGives m v → Fin v) :
    Yields (fun ms => ∀ m ∈ ms, MemberFin m) (Api.BodyProgram.structMembers steps) := by
  have h1 : Yields (fun cs => ∀ c ∈ cs, ∀ m, c = .addMember m → MemberFin m) (Api.collect Api.StructStep.run steps) := by
    refine collect_yields steps fun c hc => ?_
    cases c with
    | member n t => exact .ok (by simp)
    | simple k n => exact .ok (by simp)
    | addMember m => exact (memberProgram_yields (h m hc)).bind fun b hb => .pure (by rintro x h; cases h; exact hb)
  refine h1.bind fun cs hcs => ?_
  intro ms hms m hm
  obtain ⟨c, hc, ha⟩ := (listRel_split ((C65_structure cs).1 ms hms)).2 m hm
  cases ha with
  | member hn ht => intro t ht; cases ht
  | addMember => exact hcs _ hc m rfl
  | simple hn => intro t ht; cases ht

theorem bodyProgram_yields {p : Api.BodyProgram} (hp : ∀ v, BodyGives v p → Fin v) : Yields BodyFin p.run := by
  have none : ∀ {b : BuilderBody}, memberBuilders b = [] → BodyFin b := by
    intro b h m hm; rw [h] at hm; cases hm
  cases p with
  | simple k => exact .ok (none rfl)
  | list t ms =>
    exact ((memberNew_yields _ t).bind fun m hm => replaced_yields hm fun p hp' v hv => hp v ⟨p, hp', hv⟩).bind fun m hm => .pure
      (fun x hx => by rw [List.mem_singleton.mp hx]; exact hm)
  | set t ms =>
    exact ((memberNew_yields _ t).bind fun m hm => replaced_yields hm fun p hp' v hv => hp v ⟨p, hp', hv⟩).bind fun m hm => .pure
      (fun x hx => by rw [List.mem_singleton.mp hx]; exact hm)
  | map k v ks vs =>
    refine (memberNew_yields _ k).bind fun k hk => (memberNew_yields _ v).bind fun v hv =>
      (replaced_yields hk fun p hp' v hv => hp v ⟨p, List.mem_append.mpr (.inl hp'), hv⟩).bind fun k hk =>
      (replaced_yields hv fun p hp' v hv => hp v ⟨p, List.mem_append.mpr (.inr hp'), hv⟩).bind fun v hv => .pure ?_
    intro x hx
    simp only [memberBuilders, List.mem_cons, List.not_mem_nil, or_false] at hx
    rcases hx with rfl | rfl
    · exact hk
    · exact hv
  | struct steps => exact (structMembers_yields fun m hm v hv => hp v ⟨m, hm, hv⟩).bind fun ms hm => .pure hm
  | union steps => exact (structMembers_yields fun m hm v hv => hp v ⟨m, hm, hv⟩).bind fun ms hm => .pure hm
  | service v cs =>
    have h1 : Yields (fun _ => True) (ServiceFields.run v cs) := fun _ _ => trivial
    exact h1.bind fun f _ => .pure (none rfl)
  | operation cs =>
    have h1 : Yields (fun _ => True) (OperationFields.run cs) := fun _ _ => trivial
    exact h1.bind fun f _ => .pure (none rfl)
  | resource cs =>
    have h1 : Yields (fun _ => True) (ResourceFields.run cs) := fun _ _ => trivial
    exact h1.bind fun f _ => .pure (none rfl)

/-! ### Model builders -/

theorem insert_fin {mb : ModelBuilder} (h : ModelFin mb) {b : Builder} (hb : BuilderFin b) : ModelFin (mb.insert b) := by
  refine ⟨fun n b' hn => ?_, h.metadata⟩
  simp only [ModelBuilder.insert, AMap.get_insert] at hn
  split at hn
  · cases hn; exact hb
  · exact h.entries n b' hn

theorem metaData_fin {mb : ModelBuilder} (h : ModelFin mb) (k : Str) {v : Value} (hv : Fin v) : ModelFin (mb.metaData k v) := by
  refine ⟨h.entries, fun k' v' hk => ?_⟩
  simp only [ModelBuilder.metaData, AMap.get_insert] at hk
  split at hk
  · cases hk; exact hv
  · exact h.metadata k' v' hk

theorem metaDataFrom_fin {m : List (Str × Value)} : ∀ {mb : ModelBuilder}, ModelFin mb → (∀ e ∈ m, Fin e.2) → ModelFin (Api.metaDataFrom mb m) := by
  induction m with
  | nil => intro mb h _; exact h
  | cons e m ih =>
    obtain ⟨k, v⟩ := e
    intro mb h hv
    exact ih (metaData_fin h k (hv (k, v) (by simp))) fun e he => hv e (by simp [he])

theorem withTrait_fin {m : MemberBuilder} {t : TraitBuilder} (hm : MemberFin m) (ht : TraitFin t) : MemberFin (withTrait m t) := fun x hx => by
  rcases List.mem_append.mp hx with hx | hx
  · exact hm x hx
  · rw [List.mem_singleton.mp hx]; exact ht

theorem memberApplied_fin {k : Str} {t : TraitBuilder} {b b' : BuilderBody} (h : MemberApplied k t b b') (ht : TraitFin t) (hb : BodyFin b) : BodyFin b' := by
  have hlist : ∀ (pre : List MemberBuilder) m post, (∀ x ∈ pre ++ m :: post, MemberFin x) → ∀ x ∈ pre ++ withTrait m t :: post, MemberFin x := by
    intro pre m post h x hx
    simp only [List.mem_append, List.mem_cons] at h hx
    rcases hx with hx | rfl | hx
    · exact h x (.inl hx)
    · exact withTrait_fin (h m (.inr (.inl rfl))) ht
    · exact h x (.inr (.inr hx))
  cases h with
  | list => exact hlist [] _ [] hb
  | set => exact hlist [] _ [] hb
  | mapKey => exact hlist [] _ [_] hb
  | mapValue => exact hlist [_] _ [] hb
  | struct => exact hlist _ _ _ hb
  | union => exact hlist _ _ _ hb

theorem applyToQualified_fin {mb mb' : ModelBuilder} (h : ModelFin mb) {id : ShapeID} {t : TraitBuilder} (ht : TraitFin t)
    (ha : mb.applyToQualified id t = .ok mb') : ModelFin mb' := by
  have ha' : mb.applyTo (.qualified id) t = .ok mb' := ha
  have key : ∀ n b, EntryChanged mb mb' n b → BuilderFin b → ModelFin mb' := by
    intro n b hc hb
    refine ⟨fun n' b' hn' => ?_, by rw [hc.metadata]; exact h.metadata⟩
    by_cases hnn : n' = n
    · subst hnn; rw [hc.entry] at hn'; cases hn'; exact hb
    · rw [hc.others n' hnn] at hn'; exact h.entries n' b' hn'
  cases hm : id.member with
  | none =>
    obtain ⟨mb1, b, h1, hc, hb⟩ := C44_apply_to_shape mb id hm t
    rw [ha'] at h1; cases h1
    rcases hb with ⟨old, ho, rfl⟩ | ⟨_, rfl⟩
    · have hl := h.entries _ _ ho
      refine key _ _ hc ⟨?_, hl.2⟩
      intro x hx
      rcases List.mem_append.mp hx with hx | hx
      · exact hl.1 x hx
      · rw [List.mem_singleton.mp hx]; exact ht
    · exact key _ _ hc ⟨by simpa using ht, by intro m hm; cases hm⟩
  | some k =>
    obtain ⟨old, body, ho, hap, hc⟩ := (C44_apply_to_member mb id k hm t).1 mb' ha'
    have hl := h.entries _ _ ho
    exact key _ _ hc ⟨hl.1, memberApplied_fin hap ht hl.2⟩

theorem reference_fin (id : ShapeID) {ts : List TraitBuilder} (ht : ∀ t ∈ ts, TraitFin t) : BuilderFin ⟨.qualified id, ts, .reference⟩ :=
  ⟨ht, by intro m hm; cases hm⟩

theorem apply_fin {mb mb' : ModelBuilder} (h : ModelFin mb) {s : Str} {t : TraitBuilder} (ht : TraitFin t) (ha : mb.apply s t = .ok mb') : ModelFin mb' := by
  unfold ModelBuilder.apply at ha
  split at ha
  · cases ha
  · next n hn =>
    cases n with
    | qualified id => exact applyToQualified_fin h ht ha
    | local' l =>
      simp only [ModelBuilder.applyTo] at ha
      split at ha
      · cases ha
      · next id new hres =>
        cases new with
        | false => exact applyToQualified_fin h ht ha
        | true => exact applyToQualified_fin (insert_fin h (reference_fin id (ts := []) (by simp))) ht ha

theorem call_fin {mb : ModelBuilder} (h : ModelFin mb) {c : Api.Call} (hc : ∀ v, CallGives v c → Fin v) : Yields ModelFin (Api.call mb c) := by
  cases c with
  | shape p =>
    exact ((nameArg_yields p.name).bind fun _ _ => (bodyProgram_yields fun v hv => hc v (.inl hv)).bind fun _ hb =>
      (traits_yields fun t ht v hv => hc v (.inr ⟨t, ht, hv⟩)).bind fun _ hts => .pure (P := BuilderFin) ⟨hts, hb⟩).bind fun b hb => .pure (insert_fin h hb)
  | uses s =>
    intro mb' hu
    simp only [Api.call, ModelBuilder.uses] at hu
    cases hs : unwrap (ShapeID.fromStr s) with
    | error e => rw [hs] at hu; cases hu
    | ok id =>
      rw [hs] at hu; cases hu
      exact insert_fin h (reference_fin id (by simp))
  | reference s ts =>
    exact ((unwrap_id_yields s).bind fun id _ => (traits_yields fun t ht v hv => hc v ⟨t, ht, hv⟩).bind fun _ hts =>
      .pure (P := BuilderFin) (reference_fin id hts)).bind fun b hb => .pure (insert_fin h hb)
  | apply s t => exact (traitProgram_yields hc).bind fun tb ht mb' ha => apply_fin h ht ha
  | metaData k v => exact .ok (metaData_fin h k (hc v rfl))
  | metaDataFrom m => exact .ok (metaDataFrom_fin h fun e he => hc e.2 ⟨e.1, he⟩)

theorem run_fin (v : Version) (ns : Str) (cs : List Api.Call) (hc : ∀ c ∈ cs, ∀ v, CallGives v c → Fin v) : Yields ModelFin (Api.run v ns cs) := by
  have h0 : Yields ModelFin (ModelBuilder.new v ns) := by
    intro mb hmb
    unfold ModelBuilder.new at hmb
    cases hn : unwrap (NamespaceID.fromStr ns) with
    | error e => rw [hn] at hmb; cases hmb
    | ok n =>
      rw [hn] at hmb; cases hmb
      refine ⟨?_, ?_⟩
      · intro n b h; cases h
      · intro k v h; cases h
  exact h0.bind fun mb hmb => eachArg_yields cs (fun mb c hm h => call_fin h (hc c hm)) mb hmb

/-! ### Models -/

theorem traits_fin {mb : ModelBuilder} {tbs ts} (hg : ∀ t ∈ tbs, TraitFin t) (hb : BuildsTraits mb tbs ts) : TraitsAll Fin ts := by
  intro id v hv
  obtain ⟨pre, tb, post, rfl, -, h2, -⟩ := (hb.last id (some v)).mp hv
  exact hg tb (by simp) v h2

theorem members_fin {mb : ModelBuilder} {bs ms} (hg : ∀ b ∈ bs, MemberFin b) (hb : BuildsMembers mb bs ms) :
    ∀ k x, AMap.get ms k = some x → TraitsAll Fin x.traits := by
  intro k x hx
  have := hb.last k
  rw [hx] at this
  generalize hl : lastNamed bs k = o at this
  cases this with
  | some hm => exact traits_fin (hg _ (mem_of_lastNamed hl).1) hm.traits

theorem body_fin {mb : ModelBuilder} {b k} (hg : BodyFin b) (hb : BuildsBody mb b k) : KindAll Fin k := by
  cases hb with
  | list hx => exact traits_fin (hg _ (by simp [memberBuilders])) hx.traits
  | set hx => exact traits_fin (hg _ (by simp [memberBuilders])) hx.traits
  | map hk hw => exact ⟨traits_fin (hg _ (by simp [memberBuilders])) hk.traits, traits_fin (hg _ (by simp [memberBuilders])) hw.traits⟩
  | struct hx => exact members_fin hg hx
  | union hx => exact members_fin hg hx
  | _ => trivial

structure ShapeFin (x : TopLevelShape) : Prop where
  traits : TraitsAll Fin x.traits
  kind : KindAll Fin x.body

theorem mergeTraits_fin {id : ShapeID} {a b c : TraitValue} (h : mergeTraits id a b = .ok c) (ha : ∀ v, a = some v → Fin v) (hb : ∀ v, b = some v → Fin v) :
    ∀ v, c = some v → Fin v := by
  unfold mergeTraits at h
  split at h
  · split at h
    · cases h; exact hb
    · split at h
      · cases h; exact ha
      · cases h
        rintro v hv
        cases hv
        rw [fin_array]
        intro w hw
        rcases List.mem_append.mp hw with hw | hw
        · exact fin_array.mp (ha _ rfl) w hw
        · exact fin_array.mp (hb _ rfl) w hw
  · split at h
    · cases h; exact ha
    · cases h

theorem insertTraits_fin {ts : Traits} (h : TraitsAll Fin ts) {id : ShapeID} {v : TraitValue} (hv : ∀ w, v = some w → Fin w) : TraitsAll Fin (AMap.insert ts id v) := by
  intro i w hw
  rw [AMap.get_insert] at hw
  split at hw
  · exact hv w (by cases hw; rfl)
  · exact h i w hw

theorem append_fin {l : Traits} (hl : ∀ e ∈ l, ∀ v, e.2 = some v → Fin v) : ∀ ts, TraitsAll Fin ts → TraitsAll Fin (appendTraits ts l).1 := by
  induction l with
  | nil => intro ts h; exact h
  | cons e l ih =>
    obtain ⟨id, v⟩ := e
    intro ts h
    have h1 := hl (id, v) (by simp)
    have key : TraitsAll Fin (applyWithValue ts id v).1 := by
      unfold applyWithValue
      split
      · exact h
      · split
        · next old ho =>
          split
          · next new hm => exact insertTraits_fin h (mergeTraits_fin hm (fun w hw => h id w (by rw [ho, hw])) h1)
          · exact h
        · exact insertTraits_fin h h1
    unfold appendTraits
    split
    · next ts' he => rw [he] at key; exact ih (fun e he => hl e (by simp [he])) _ key
    · next ts' e he => rw [he] at key; exact key

theorem reconcile_fin {a b : TopLevelShape} (ha : ShapeFin a) (hb : ShapeFin b) (hw : AMap.Wf b.traits) : ShapeFin (Model.reconcile a b).1 := by
  obtain ⟨-, h2, h3⟩ := reconcile_frame a b
  refine ⟨?_, ?_⟩
  · rcases h3 with h3 | h3
    · rw [h3]; exact ha.traits
    · rw [h3]
      exact append_fin (fun e he v hv => hb.traits e.1 v (by rw [← hv]; exact AMap.get_of_mem hw he)) _ ha.traits
  · rcases h2 with h2 | ⟨-, h2⟩
    · rw [h2]; exact ha.kind
    · rw [h2]; exact hb.kind

theorem slot_fin (L : List TopLevelShape) (hL : ∀ x ∈ L, ShapeFin x ∧ AMap.Wf x.traits) : ∀ o, (∀ x, o = some x → ShapeFin x) →
    ∀ x, L.foldl slotStep o = some x → ShapeFin x := by
  induction L with
  | nil => intro o ho x hx; exact ho x hx
  | cons y L ih =>
    intro o ho x hx
    refine ih (fun z hz => hL z (by simp [hz])) (slotStep o y) ?_ x hx
    intro z hz
    obtain ⟨hy, hw⟩ := hL y (by simp)
    by_cases ha : Admissible y
    · rw [slotStep_admissible ha] at hz
      cases o with
      | none => cases hz; exact hy
      | some e => cases hz; exact reconcile_fin (ho e rfl) hy hw
    · rw [slotStep_not_admissible ha] at hz; exact ho z hz

theorem build_fin {mb : ModelBuilder} (hw : WfBuilder mb) (h : ModelFin mb) {enum : List ShapeID → List ShapeID} (he : Enumerates enum) {m : Model}
    (hb : mb.build enum = .ok m) : FiniteModel m := by
  obtain ⟨ss, gs, h1, h2, h3, h4⟩ := build_parts hw he hb
  have hall : ∀ x ∈ ss ++ gs.map fun id => TopLevelShape.new id .unresolved, ShapeFin x ∧ AMap.Wf x.traits := by
    intro x hx
    rcases List.mem_append.mp hx with hx | hx
    · obtain ⟨b, hb', hs'⟩ := (listRel_split h1).2 x hx
      have hb' := h.entries _ _ ((mem_values hw).mp hb')
      exact ⟨⟨traits_fin hb'.1 hs'.traits, body_fin hb'.2 hs'.body⟩, hs'.traits.nodup⟩
    · obtain ⟨id, hid, rfl⟩ := List.mem_map.mp hx
      exact ⟨⟨(by intro _ _ h; cases h), trivial⟩, AMap.wf_nil⟩
  refine ⟨?_, fun id x hx => ?_⟩
  · rw [(C25_built_model mb hw enum he m hb).2.2.1]; exact h.metadata
  · rw [addAllIgnoring_slot h4 id, start_shape] at hx
    have hv := slot_fin _ (fun y hy => hall y (List.mem_filter.mp hy).1) none (by simp) x hx
    exact ⟨hv.traits, hv.kind⟩

end ApiFin

/-- C66: the numbers of a model that is built are finite if those given to the calls are. -/
theorem C66_finite (v : Version) (ns : Str) (cs : List Api.Call) (hargs : ∀ c ∈ cs, CallArgs c) (hfin : ∀ c ∈ cs, ∀ v, CallGives v c → ¬ NonFinite v)
    (mb : ModelBuilder) (hrun : Api.run v ns cs = .ok mb) (enum : List ShapeID → List ShapeID) (he : Enumerates enum) (m : Model)
    (hb : mb.build enum = .ok m) : FiniteModel m :=
  ApiFin.build_fin (run_ok v ns cs hargs mb hrun).1.wf (ApiFin.run_fin v ns cs hfin mb hrun) he hb

/-- C66: when the numbers given to the calls are finite and no call imports the member of a shape, the model that is built can be written as JSON and
read again, giving the model up to the differences of C30. -/
theorem C66_written (v : Version) (ns : Str) (cs : List Api.Call) (hargs : ∀ c ∈ cs, CallArgs c) (himp : ∀ c ∈ cs, ImportsShape c)
    (hfin : ∀ c ∈ cs, ∀ v, CallGives v c → ¬ NonFinite v)
    (mb : ModelBuilder) (hrun : Api.run v ns cs = .ok mb) (enum : List ShapeID → List ShapeID) (he : Enumerates enum) (m : Model)
    (hb : mb.build enum = .ok m) : ∃ j m', JsonWriter.modelToJson m = .ok j ∧ JsonReader.model j = .ok m' ∧ SameModel (jsonNormal m) m' :=
  C66_round_trip v ns cs hargs himp mb hrun enum he m hb (C66_finite v ns cs hargs hfin mb hrun enum he m hb)

/-- The values of the example are finite. -/
theorem exProgram_finite : ∀ c ∈ exProgram, ∀ v, CallGives v c → ¬ NonFinite v := by
  simp only [exProgram, List.mem_cons, List.not_mem_nil, or_false, forall_eq_or_imp, forall_eq, CallGives, BodyGives, TraitGives, MemberGives]
  simp only [reduceCtorEq, Api.StructStep.addMember.injEq, false_or, or_false]
  simp
  refine ⟨?_, ?_⟩
  · exact ApiFin.fin_string _
  · exact ApiFin.fin_int _

set_option maxRecDepth 100000 in
/-- The example meets the hypotheses of `C66_written`. -/
example : ∃ mb m j m', Api.run .v10 (%s"my.ns") exProgram = .ok mb ∧ mb.build enumFirst = .ok m ∧ JsonWriter.modelToJson m = .ok j ∧
    JsonReader.model j = .ok m' := by
  obtain ⟨j, m', h1, h2, -⟩ := C66_written .v10 (%s"my.ns") exProgram exProgram_args.1 exProgram_args.2 exProgram_finite _ rfl enumFirst enumFirst_enumerates _ rfl
  exact ⟨_, _, j, m', rfl, rfl, h1, h2⟩

end Verif
