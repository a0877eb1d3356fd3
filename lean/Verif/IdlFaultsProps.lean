/-
What is wrong with the texts that the grammar of the Smithy IDL accepts.
-/
import Verif.IdlFaultsObjects

namespace Verif
open Peg Spec Idl Spec.Faults

namespace IdlParser
open IdlRule
variable {flt : Str → Option F64}

theorem builderOf_judged {p : Pair IdlRule} (h : Made idlGrammar p) (hr : p.asRule ∈ [simpleShapeStatement, listStatement, setStatement, mapStatement, structureStatement,
    unionStatement, serviceStatement, operationStatement, resourceStatement]) : Judged flt [p] (builderOf flt p) := by
  simp only [List.mem_cons, List.not_mem_nil, or_false] at hr
  unfold builderOf
  rcases hr with hr | hr | hr | hr | hr | hr | hr | hr | hr <;> simp only [hr]
  · exact simple_judged h hr
  · exact listOf_judged h (.inl hr) _
  · exact listOf_judged h (.inr hr) _
  · exact mapOf_judged h hr
  · exact structureOf_judged h (.inl hr) _
  · exact structureOf_judged h (.inr hr) _
  · exact serviceOf_judged h hr
  · exact operationOf_judged h hr
  · exact resourceOf_judged h hr

theorem statementLoop_judged (ps : List (Pair IdlRule)) (h : ∀ p ∈ ps, Made idlGrammar p) (hr : ∀ p ∈ ps, p.asRule = documentationText ∨ p.asRule = traitStatements ∨
    p.asRule ∈ [simpleShapeStatement, listStatement, setStatement, mapStatement, structureStatement, unionStatement, serviceStatement, operationStatement,
      resourceStatement]) : ∀ mb docs ts, Judged flt ps (statementLoop flt mb docs ts ps) := by
  induction ps with
  | nil => intro mb docs ts; exact .nil
  | cons p ps ih =>
    intro mb docs ts
    have ih := ih (fun q hq => h q (by simp [hq])) (fun q hq => hr q (by simp [hq]))
    have hp := h p (by simp)
    unfold statementLoop
    rcases hr p (by simp) with hr | hr | hr
    · simp only [hr]
      exact .skip (Clean.quiet hp (by rw [hr]; rfl)) (ih _ _ _)
    · simp only [hr]
      exact (traitsOf_judged hp hr).cons fun _ _ => ih _ _ _
    · have hb := builderOf_judged (flt := flt) hp hr
      have step := hb.cons (ps := ps) (f := fun b => statementLoop flt (mb.insert { b with traits := b.traits ++ appliedTraits docs ts }) docs ts ps) fun _ _ => ih _ _ _
      simp only [List.mem_cons, List.not_mem_nil, or_false] at hr
      rcases hr with hr | hr | hr | hr | hr | hr | hr | hr | hr <;> (simp only [hr]; exact step)

theorem statement_judged {p : Pair IdlRule} (h : Made idlGrammar p) (hr : p.asRule = shapeStatement) (mb : ModelBuilder) :
    Judged flt [p] (statementLoop flt mb [] [] p.intoInner) := by
  refine Judged.inner (statementLoop_judged _ h.inner (fun q hq => ?_) _ _ _) (by rw [hr]; decide)
  have := made_emits h hr rfl q hq
  simpa using this

theorem statementsLoop_judged (ps : List (Pair IdlRule)) (h : ∀ p ∈ ps, Made idlGrammar p) (hr : ∀ p ∈ ps, p.asRule = shapeStatement ∨ p.asRule = applyStatement) : ∀ mb,
    Judged flt ps (statementsLoop flt mb ps) := by
  induction ps with
  | nil => intro mb; exact .nil
  | cons p ps ih =>
    intro mb
    have ih := ih (fun q hq => h q (by simp [hq])) (fun q hq => hr q (by simp [hq]))
    have hp := h p (by simp)
    unfold statementsLoop
    rcases hr p (by simp) with hr | hr
    · simp only [hr]
      exact (statement_judged hp hr mb).cons fun _ _ => ih _
    · simp only [hr]
      have hf := PartFault.apply (flt := flt) hr
      rw [hr] at hf
      exact (Judged.fault hf).front (by rintro a ⟨⟩)

theorem useLoop_ok (ps : List (Pair IdlRule)) (h : ∀ p ∈ ps, Made idlGrammar p) (hr : ∀ p ∈ ps, p.asRule = useStatement) : ∀ mb, ∃ mb', useLoop mb ps = .ok mb' := by
  induction ps with
  | nil => intro mb; exact ⟨mb, rfl⟩
  | cons p ps ih =>
    intro mb
    have ih := ih (fun q hq => h q (by simp [hq])) (fun q hq => hr q (by simp [hq]))
    obtain ⟨x, he, hx⟩ := (made_exactly (h p (by simp)) (hr p (by simp)) rfl).one
    have hx : x.asRule = absoluteRootShapeId := by simpa using hx
    obtain ⟨ns, n, h1, h2, h3⟩ := sound_absolute ((h p (by simp)).inner x (by simp [he])).sound hx
    unfold useLoop
    rw [if_pos (hr p (by simp)), he]
    obtain ⟨mb', hb⟩ := ih (mb.insert ⟨.qualified ⟨ns, n, none⟩, [], .reference⟩)
    refine ⟨mb', ?_⟩
    change (if x.asRule = absoluteRootShapeId then mb.uses x.asStr >>= fun mb => useLoop mb ps else SelParser.unexpected) = _
    rw [if_pos hx]
    unfold ModelBuilder.uses
    rw [h3, fromStr_absolute h1 h2]
    exact hb

theorem namespaceOf_ok {v : Version} {p : Pair IdlRule} (h : Made idlGrammar p) (hr : p.asRule = namespaceStatement) : ∃ mb, namespaceOf v p = .ok mb := by
  obtain ⟨x, he, hx⟩ := (made_exactly h hr rfl).one
  have hx : x.asRule = nsName := by simpa using hx
  have hn := sound_namespace (h.inner x (by simp [he])).sound hx
  have : NamespaceID.fromStr x.asStr = .ok x.asStr := by
    unfold NamespaceID.fromStr
    rw [if_pos ((isNamespace_iff _).mpr (smithyNamespace_isNamespace hn))]
  unfold namespaceOf
  rw [he]
  change ∃ mb, (if x.asRule = nsName then ModelBuilder.new v x.asStr else SelParser.unexpected) = .ok mb
  rw [if_pos hx]
  unfold ModelBuilder.new
  rw [this]
  exact ⟨_, rfl⟩

theorem sectionLoop_judged (v : Version) (ps : List (Pair IdlRule)) (h : ∀ p ∈ ps, Made idlGrammar p)
    (hr : ∀ p ∈ ps, p.asRule = namespaceStatement ∨ p.asRule = useSection ∨ p.asRule = shapeStatements) : ∀ mb : ModelBuilder,
    Judged flt ps (sectionLoop flt v (some mb) ps) := by
  induction ps with
  | nil => intro mb; exact .nil
  | cons p ps ih =>
    intro mb
    have ih := ih (fun q hq => h q (by simp [hq])) (fun q hq => hr q (by simp [hq]))
    have hp := h p (by simp)
    unfold sectionLoop
    rcases hr p (by simp) with hr | hr | hr
    · simp only [hr]
      obtain ⟨mb', hb⟩ := namespaceOf_ok (v := v) hp hr
      rw [hb]
      exact .skip (Clean.quiet hp (by rw [hr]; rfl)) (ih _)
    · simp only [hr]
      obtain ⟨mb', hb⟩ := useLoop_ok p.intoInner hp.inner (fun q hq => by simpa using made_emits hp hr rfl q hq) mb
      change Judged flt (p :: ps) (useLoop mb p.intoInner >>= fun mb => sectionLoop flt v (some mb) ps)
      rw [hb]
      exact .skip (Clean.quiet hp (by rw [hr]; rfl)) (ih _)
    · simp only [hr]
      change Judged flt (p :: ps) (statementsLoop flt mb p.intoInner >>= fun mb => sectionLoop flt v (some mb) ps)
      refine Judged.cons (Judged.inner (statementsLoop_judged p.intoInner hp.inner (fun q hq => ?_) mb) (by rw [hr]; decide)) fun _ _ => ih _
      have := made_emits hp hr rfl q hq
      simp only [List.mem_append, List.mem_cons, List.not_mem_nil, or_false] at this
      rcases this with (h | h) | h | h <;> simp [h]

theorem section_judged {v : Version} {p : Pair IdlRule} (h : Made idlGrammar p) (hr : p.asRule = shapeSection) :
    Judged flt [p] (sectionLoop flt v none p.intoInner) := by
  refine Judged.inner ?_ (by rw [hr]; decide)
  have hall : ∀ q ∈ p.intoInner, q.asRule = namespaceStatement ∨ q.asRule = useSection ∨ q.asRule = shapeStatements :=
    fun q hq => by simpa using made_emits h hr rfl q hq
  rcases section_inner h.sound hr with he | ⟨q, rest, he, hq⟩
  · rw [he]; exact .nil
  · have hin := h.inner
    rw [he] at hall hin ⊢
    unfold sectionLoop
    simp only [hq]
    obtain ⟨mb, hb⟩ := namespaceOf_ok (v := v) (hin q (by simp)) hq
    rw [hb]
    exact .skip (Clean.quiet (hin q (by simp)) (by rw [hq]; rfl)) (sectionLoop_judged v rest (fun x hx => hin x (by simp [hx])) (fun x hx => hall x (by simp [hx])) mb)

theorem entriesOf_judged {rule : IdlRule} (hk : Keyed rule) (ps : List (Pair IdlRule)) (h : ∀ p ∈ ps, Made idlGrammar p) (hr : ∀ p ∈ ps, p.asRule = rule) :
    ∀ o, Judged flt ps (entriesOf flt rule o ps) := by
  induction ps with
  | nil => intro o; exact .nil
  | cons p ps ih =>
    intro o
    unfold entriesOf
    rw [if_pos (hr p (by simp))]
    refine (kvpOf_judged flt p (h p (by simp)) (by rw [hr p (by simp)]; exact hk)).cons ?_
    rintro ⟨k, v⟩ -
    exact ih (fun q hq => h q (by simp [hq])) (fun q hq => hr q (by simp [hq])) _

theorem control_faults {p : Pair IdlRule} (hr : p.asRule = controlSection) (e : Err) :
    PartFault flt p e ↔ ∃ v t, Last (entries controlStatement p) %s"version" v ∧ IsText v t ∧ t ∉ [%s"1", %s"1.0"] ∧ e = .invalidVersionNumber (some t) := by
  constructor
  · intro h
    cases h with
    | version _ h1 h2 h3 => exact ⟨_, _, h1, h2, h3, rfl⟩
    | collection h => rcases h with h | h <;> rw [hr] at h <;> cases h
    | name h => rcases h with h | h <;> rw [hr] at h <;> cases h
    | property h => rw [hr] at h; exact absurd h (by decide)
    | number h => rw [hr] at h; cases h
    | mapMember h => rw [hr] at h; cases h
    | mapMissing h => rw [hr] at h; cases h
    | service h => rw [hr] at h; cases h
    | apply h => rw [hr] at h; cases h
    | trait h => rw [hr] at h; cases h
  · rintro ⟨v, t, h1, h2, h3, rfl⟩
    exact .version hr h1 h2 h3

theorem control_judged {p : Pair IdlRule} (h : Made idlGrammar p) (hr : p.asRule = controlSection) :
    Judged flt [p] (entriesOf flt controlStatement [] p.intoInner >>= versionOf) := by
  have hall : ∀ q ∈ p.intoInner, q.asRule = controlStatement := fun q hq => by simpa using made_emits h hr rfl q hq
  refine (entriesOf_judged (.inr (.inl rfl)) p.intoInner h.inner hall []).up fun o ho => ?_
  obtain ⟨xs, rfl, hx⟩ := entriesOf_reads (.inr (.inl rfl)) h.inner hall _ _ ho
  change List.Forall₂ _ _ _ at hx
  have hx : List.Forall₂ (ReadsEntry flt) (entries controlStatement p) xs := by
    unfold entries; rw [parts_all hall]; exact hx
  simp only [control_faults hr]
  change (∀ e, versionOf (AMap.ofList xs) = .error e → _) ∧ ∀ b, versionOf (AMap.ofList xs) = .ok b → _
  refine ⟨fun e he => ?_, fun b hb e he => ?_⟩
  · obtain ⟨t, hg, ht, rfl⟩ := versionOf_error he
    obtain ⟨q, hq, hrd⟩ := (last_reads hx _).2 _ hg
    refine ⟨q, t, hq, ?_, ht, rfl⟩
    cases hrd.kinds with
    | text h1 => exact (h1 t).mpr rfl
    | other _ _ _ h1 => exact absurd rfl (h1 _)
  · obtain ⟨q, t, hq, ht, hn, rfl⟩ := he
    obtain ⟨v, hg, hrd⟩ := (last_reads hx _).1 _ hq
    have hv : v = .string t := by
      cases hrd.kinds with
      | text h1 => rw [(h1 t).mp ht]
      | array h1 => exact absurd ht (h1 _)
      | object h1 => exact absurd ht (h1 _)
      | other h1 => exact absurd ht (h1 _)
    subst hv
    unfold versionOf at hb
    rw [hg] at hb
    dsimp only at hb
    unfold Version.fromStr at hb
    split at hb
    · next hv => exact hn (by simpa using hv)
    · cases hb

theorem readIdl_judged {p : Pair IdlRule} (h : Made idlGrammar p) (hr : p.asRule = idl) : Judged flt [p] (readIdl flt p) := by
  have hex := made_exactly h hr rfl
  obtain ⟨a, b, c, d, he, ha, hb, hc, hd⟩ : ∃ a b c d, p.intoInner = [a, b, c, d] ∧ a.asRule = controlSection ∧ b.asRule = metadataSection ∧ c.asRule = shapeSection ∧
      d.asRule = EOI := by
    generalize p.intoInner = ps at hex
    match ps, hex with
    | [a, b, c, d], h =>
      obtain ⟨h1, h2, h3, h4, -⟩ := h
      exact ⟨a, b, c, d, rfl, by simpa using h1, by simpa using h2, by simpa using h3, List.mem_singleton.mp h4⟩
  have hin := h.inner
  rw [he] at hin
  have hmeta : ∀ q ∈ b.intoInner, q.asRule = metadataStatement := fun q hq => by simpa using made_emits (hin b (by simp)) hb rfl q hq
  have h1 := control_judged (flt := flt) (hin a (by simp)) ha
  have h2 := Judged.inner (flt := flt) (p := b) (entriesOf_judged (.inr (.inr (.inl rfl))) b.intoInner (hin b (by simp)).inner hmeta []) (by rw [hb]; decide)
  have h3 := fun v => section_judged (flt := flt) (v := v) (hin c (by simp)) hc
  have h4 : Clean flt d := Clean.quiet (hin d (by simp)) (by rw [hd]; rfl)
  refine Judged.inner ?_ (by rw [hr]; decide)
  rw [he]
  have eq : readIdl flt p = (entriesOf flt controlStatement [] a.intoInner >>= versionOf) >>= fun v =>
      entriesOf flt metadataStatement [] b.intoInner >>= fun m => sectionLoop flt v none c.intoInner >>= fun mb =>
        (.ok (mb.map fun mb => mb.metaDataFrom m) : Except Err (Option ModelBuilder)) := by
    unfold readIdl
    rw [if_pos hr, he, nextInto_eq ha]
    cases entriesOf flt controlStatement [] a.intoInner with
    | error e => rfl
    | ok o =>
      change (versionOf o >>= fun v => nextInto metadataSection _ [b, c, d] >>= _) = (versionOf o >>= _)
      cases versionOf o with
      | error e => rfl
      | ok v =>
        change (nextInto metadataSection _ [b, c, d] >>= _) = (entriesOf flt metadataStatement [] b.intoInner >>= _)
        rw [nextInto_eq hb]
        cases entriesOf flt metadataStatement [] b.intoInner with
        | error e => rfl
        | ok m =>
          change (nextInto shapeSection _ [c, d] >>= _) = (sectionLoop flt v none c.intoInner >>= _)
          rw [nextInto_eq hc]
          cases sectionLoop flt v none c.intoInner with
          | error e => rfl
          | ok mb => rfl
  rw [eq]
  refine h1.cons fun v _ => h2.cons fun m _ => (h3 v).cons fun mb _ => .skip h4 .nil

end IdlParser

/-- C107: reading a text that the grammar accepts fails only for a fault of one of its parts, with the error of this fault; and it
succeeds exactly when no part has a fault. -/
theorem C107_faults (flt : Str → Option F64) (s t rest : Str) (ps : List (Pair IdlRule)) (h : Parses idlGrammar false (.rule .idl) s (some (t, rest, ps))) :
    (∀ e, readBuilder flt s = .error e → ∃ p ∈ ps, ∃ q, Inside q p ∧ PartFault flt q e) ∧
    ((∃ b, readBuilder flt s = .ok b) ↔ ∀ p ∈ ps, ∀ q, Inside q p → ∀ e, ¬ PartFault flt q e) := by
  have hm : matchIdl s = some ps := (matchIdl_iff _ _).mpr ⟨_, h, rfl⟩
  obtain ⟨qs, rfl⟩ : ∃ qs, ps = [.mk .idl t qs] := by
    cases h with
    | rule h => exact ⟨_, rfl⟩
  have hj := IdlParser.readIdl_judged (flt := flt) (Parses.made h _ _ _ rfl _ (List.mem_singleton.mpr rfl)) rfl
  have hb : readBuilder flt s = IdlParser.readIdl flt (.mk .idl t qs) := by
    unfold readBuilder
    rw [hm]
    rfl
  rw [hb]
  refine ⟨hj.1, ⟨fun ⟨b, hb⟩ => hj.2 b hb, fun hn => ?_⟩⟩
  cases hr : IdlParser.readIdl flt (.mk .idl t qs) with
  | ok b => exact ⟨b, rfl⟩
  | error e =>
    obtain ⟨p, hp, q, hq, hf⟩ := hj.1 e hr
    exact absurd hf (hn p hp q hq e)

/-- C107: for a text that the grammar accepts: when a part has a fault, there is no model, and the error is that of a fault of the text;
when no part has a fault, then without a namespace the model is empty, and otherwise the text is that of a file, and the result is that of
building what is in the file. -/
theorem C107_model (flt : Str → Option F64) (enum : List ShapeID → List ShapeID) (s t rest : Str) (ps : List (Pair IdlRule))
    (h : Parses idlGrammar false (.rule .idl) s (some (t, rest, ps))) :
    ((∃ p ∈ ps, ∃ q e, Inside q p ∧ PartFault flt q e) → ∃ e, parseModel flt enum s = .error e ∧ ∃ p ∈ ps, ∃ q, Inside q p ∧ PartFault flt q e) ∧
    ((∀ p ∈ ps, ∀ q, Inside q p → ∀ e, ¬ PartFault flt q e) → parseModel flt enum s = .ok (Model.new .v10) ∨
      ∃ f v, Loose.FileText flt f s ∧ f.HasVersion v ∧ parseModel flt enum s = (f.builder v).build enum) := by
  obtain ⟨h1, h2⟩ := C107_faults flt s t rest ps h
  constructor
  · rintro ⟨p, hp, q, e, hq, hf⟩
    cases hr : readBuilder flt s with
    | ok b => exact absurd hf (h2.mp ⟨b, hr⟩ p hp q hq e)
    | error e' =>
      refine ⟨e', ?_, h1 e' hr⟩
      unfold parseModel
      rw [hr]
      rfl
  · intro hn
    obtain ⟨b, hb⟩ := h2.mpr hn
    unfold parseModel
    rw [hb]
    cases b with
    | none => exact .inl rfl
    | some mb =>
      obtain ⟨f, v, h3, h4, rfl⟩ := C96_read flt s mb hb
      exact .inr ⟨f, v, h3, h4, rfl⟩

set_option maxRecDepth 100000 in
/-- C107: a text for each fault, and its error; the last one has no fault. -/
theorem C107_examples (flt : Str → Option F64) (enum : List ShapeID → List ShapeID) :
    parseModel flt enum %s"metadata a = {b: 9223372036854775808}" = .error (.other %s"number format error") ∧
    parseModel flt enum %s"$version: \"1\" $version: \"3\"" = .error (.invalidVersionNumber (some %s"3")) ∧
    parseModel flt enum %s"namespace a set S { member: T, member: T }" = .error (surprise %s"parse_list_statement" none) ∧
    parseModel flt enum %s"namespace a map M { key: T, value: T, other: T }" = .error (surprise %s"parse_map_statement" none) ∧
    parseModel flt enum %s"namespace a map M { key: T }" = .error (surprise %s"parse_map_statement" none) ∧
    parseModel flt enum %s"namespace a service S { operations: [O] }" = .error .panic ∧
    parseModel flt enum %s"namespace a service S { version: 1 }" = .error .panic ∧
    parseModel flt enum %s"namespace a service S { version: \"1\", input: I }" = .error (surprise %s"parse_service_statement" (some %s"input")) ∧
    parseModel flt enum %s"namespace a operation O { errors: E }" = .error (surprise %s"parse_operation_statement" none) ∧
    parseModel flt enum %s"namespace a operation O { errors: [E, 1] }" = .error .panic ∧
    parseModel flt enum %s"namespace a operation O { input: \"an input\" }" = .error .panic ∧
    parseModel flt enum %s"namespace a resource R { identifiers: [I] }" = .error (surprise %s"parse_resource_statement" none) ∧
    parseModel flt enum %s"namespace a resource R { identifiers: {\"i\": I} }" = .error .panic ∧
    parseModel flt enum %s"namespace a apply T @deprecated" = .error (surprise %s"parse_shape_statements" none) ∧
    parseModel flt enum %s"namespace a @t(1, a: 2) string S" = .error (surprise %s"parse_a_trait" none) ∧
    parseModel flt enum %s"namespace a @t$m string S" = .error .panic ∧
    parseModel flt enum %s"namespace a structure S { m: T$n }" = .error .panic ∧
    (∃ b, readBuilder flt %s"$version: \"3\" $version: \"1\" namespace a resource R { identifiers: {i: I}, identifiers: {j: J} } map M { VALUE: T, key: a.b#U }" = .ok b) :=
  ⟨by rfl, by rfl, by rfl, by rfl, by rfl, by rfl, by rfl, by rfl, by rfl, by rfl, by rfl, by rfl, by rfl, by rfl, by rfl, by rfl, by rfl, _, by rfl⟩

end Verif
