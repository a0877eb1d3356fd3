/-
Files of the Smithy IDL in any layout.
-/
import Verif.IdlLayoutStatements
import Verif.IdlRoundTrip

namespace Verif
open Peg Spec Spec.Idl
open IdlGrammar (r null rank)

/-! ### All statements -/

theorem statementText_noUse {flt : Str → Option F64} {b : Builder} {t : Str} (h : StatementText flt b t) (u : Str) :
    Parses idlGrammar false (r .useStatement) (t ++ u) none := by
  have sf : ∀ {s : Str}, stripPrefix %s"use" s = none → Parses idlGrammar false (r .useStatement) s none := fun h =>
    failsNormal rfl (.seqFail1 (.strFail h))
  obtain ⟨⟨docs, d, dt, tb, x, h1, h2, h3, rfl, rfl⟩, hn, hb⟩ := h
  cases h1 with
  | cons => exact sf rfl
  | nil =>
    cases h3 with
    | cons h =>
      obtain ⟨y, rfl⟩ := trait_head h
      exact sf rfl
    | nil =>
      cases hb with
      | @simple k w hw => cases k <;> exact sf rfl
      | object _ _ _ ho => cases ho <;> exact sf rfl
      | _ => exact sf rfl

theorem statements_any {flt : Str → Option F64} {bs : List Builder} {s : Str} (h : StatementsText flt bs s) :
    Stops s ∧ Parses idlGrammar false (r .useStatement) s none ∧
      Eats (.rep (r .shapeStatement <||> r .applyStatement)) s [] (List.Forall₂ (ShapePair flt) bs) ∧
      (bs = [] ∧ s = [] ∨ Eats (.plus (r .shapeStatement <||> r .applyStatement)) s [] (List.Forall₂ (ShapePair flt) bs)) := by
  have stops_nil : Stops [] := ws_none (by intro c h e; cases e)
  have rep_nil : Eats (.rep (r .shapeStatement <||> r .applyStatement)) [] [] (List.Forall₂ (ShapePair flt) []) := by
    refine (Eats.repNil (fails_nil (by decide))).mono ?_
    rintro _ rfl
    exact .nil
  have step : ∀ {b : Builder} {t w u : Str} {bs : List Builder}, StatementText flt b t → Blank w → Stops u → (t.getLast? = some '}' ∨ NameEnd (w ++ u)) →
      Eats (.rep (r .shapeStatement <||> r .applyStatement)) u [] (List.Forall₂ (ShapePair flt) bs) →
      Stops (t ++ (w ++ u)) ∧ Parses idlGrammar false (r .useStatement) (t ++ (w ++ u)) none ∧
      Eats (.rep (r .shapeStatement <||> r .applyStatement)) (t ++ (w ++ u)) [] (List.Forall₂ (ShapePair flt) (b :: bs)) ∧
      Eats (.plus (r .shapeStatement <||> r .applyStatement)) (t ++ (w ++ u)) [] (List.Forall₂ (ShapePair flt) (b :: bs)) := by
    intro b t w u bs hb hw hu he hrest
    obtain ⟨h1, h2⟩ := statement_any hb hw hu he
    refine ⟨h1, statementText_noUse hb _, ((Eats.choiceL h2).repCons hrest).mono ?_, ((Eats.choiceL h2).seq hrest).mono ?_⟩
    all_goals
      rintro _ ⟨_, _, rfl, ⟨p, rfl, hp⟩, hq⟩
      exact .cons hp hq
  induction h with
  | nil => exact ⟨stops_nil, fails_nil (by decide), rep_nil, .inl ⟨rfl, rfl⟩⟩
  | @last b t w hb hw =>
    have := step hb hw stops_nil (.inr (nameEnd_blank hw nameEnd_nil)) rep_nil
    rw [List.append_nil] at this
    exact ⟨this.1, this.2.1, this.2.2.1, .inr this.2.2.2⟩
  | @cons b t w bs u hb hw he _ ih =>
    obtain ⟨h1, -, h3, -⟩ := ih
    have := step hb hw h1 (he.elim (fun h => .inr (nameEnd_gap ⟨hw, h⟩)) .inl) h3
    rw [List.append_assoc]
    exact ⟨this.1, this.2.1, this.2.2.1, .inr this.2.2.2⟩

theorem statementsSection_any {flt : Str → Option F64} {bs : List Builder} {s : Str} (h : StatementsText flt bs s) :
    Eats (.opt (r .shapeStatements)) s [] (SectionPairs flt bs) := by
  obtain ⟨-, -, -, hor⟩ := statements_any h
  rcases hor with ⟨rfl, rfl⟩ | h
  · refine (Eats.optNone (fails_nil (by decide))).mono ?_
    rintro _ rfl v mb more
    rfl
  · refine (Eats.opt (Eats.normal (r := .shapeStatements) rfl h)).mono ?_
    rintro _ ⟨t, ps, rfl, hps⟩ v mb more
    change (IdlParser.statementsLoop flt mb ps >>= fun mb => IdlParser.sectionLoop flt v (some mb) more) = _
    rw [statementsLoop_forall hps mb]
    rfl

/-! ### Imports -/

/-- The builder of an import. -/
def importRef (id : ShapeID) : Builder := ⟨.qualified id, [], .reference⟩

/-- The pair of an import. -/
def UsePair (id : ShapeID) (p : Pair IdlRule) : Prop :=
  p.asRule = .useStatement ∧ ∃ ps', p.intoInner = [.mk .absoluteRootShapeId id.display ps']

theorem useLoop_any {ids : List ShapeID} {ps : List (Pair IdlRule)} (hids : ∀ id ∈ ids, SmithyId id) (h : List.Forall₂ UsePair ids ps) (mb : ModelBuilder) :
    IdlParser.useLoop mb ps = .ok (insertAll mb (ids.map importRef)) := by
  induction h generalizing mb with
  | nil => rfl
  | @cons id p ids ps h _ ih =>
    obtain ⟨rl, t, inner⟩ := p
    obtain ⟨h1, ps', h2⟩ := h
    cases h1
    cases h2
    have : mb.uses id.display = .ok (mb.insert (importRef id)) := by
      unfold ModelBuilder.uses
      rw [smithyId_fromStr (hids id (by simp))]
      rfl
    change (mb.uses id.display >>= fun mb => IdlParser.useLoop mb ps) = _
    rw [this]
    exact ih (fun x hx => hids x (by simp [hx])) _

theorem usesText_ids {ids : List ShapeID} {us : Str} (h : UsesText ids us) : ∀ id ∈ ids, SmithyId id := by
  induction h with
  | nil => intro id h; cases h
  | cons hid _ _ _ ih =>
    intro x hx
    rcases List.mem_cons.mp hx with rfl | hx
    · exact hid
    · exact ih x hx

theorem uses_any {flt : Str → Option F64} {ids : List ShapeID} {us w b : Str} (h : UsesText ids us) (hw : Blank w) (hb : Stops b)
    (hend : NameEnd (w ++ b)) (huse : Parses idlGrammar false (r .useStatement) b none) :
    NameEnd (us ++ (w ++ b)) ∧ ∃ w' u', us ++ (w ++ b) = w' ++ u' ∧ Blank w' ∧ Stops u' ∧ Eats (.opt (r .useSection)) u' b (SectionPairs flt (ids.map importRef)) := by
  have hids := usesText_ids h
  have main : NameEnd (us ++ (w ++ b)) ∧ ∃ w' u', us ++ (w ++ b) = w' ++ u' ∧ Blank w' ∧ Stops u' ∧ Eats (.rep (r .useStatement)) u' b (List.Forall₂ UsePair ids) ∧
      ((ids = [] ∧ u' = b) ∨ Eats (.plus (r .useStatement)) u' b (List.Forall₂ UsePair ids)) := by
    clear hids
    induction h with
    | nil =>
      refine ⟨hend, w, b, rfl, hw, hb, (Eats.repNil huse).mono ?_, .inl ⟨rfl, rfl⟩⟩
      rintro _ rfl
      exact .nil
    | @cons id ids w1 w2 us hid hw1 hw2 _ ih =>
      obtain ⟨h1, w', u', e, hw', hu', hrest, -⟩ := ih
      have eq : w1 ++ %s"use" ++ w2 ++ id.ns ++ %s"#" ++ id.name ++ us ++ (w ++ b) = w1 ++ (%s"use" ++ (w2 ++ (id.display ++ (w' ++ u')))) := by
        rw [← e, smithyId_display hid]; simp
      rw [eq]
      refine ⟨nameEnd_gap hw1, w1, _, rfl, hw1.1, stops_of_head ⟨_, _, rfl, by decide⟩, ?_⟩
      have hst : Stops (id.display ++ (w' ++ u')) := by
        obtain ⟨c, x, e, hc⟩ := (smithyId_text hid).head
        rw [e]
        exact head_stops ⟨c, _, rfl, hc⟩
      have habs : Eats (r .absoluteRootShapeId) (id.display ++ (w' ++ u')) (w' ++ u') (fun ps => ∃ ps', ps = [.mk .absoluteRootShapeId id.display ps']) := by
        rw [smithyId_display hid]
        exact absolute_eats hid.ns hid.name (by rw [← e]; exact h1)
      have hone : Eats (r .useStatement) (%s"use" ++ (w2 ++ (id.display ++ (w' ++ u')))) u' (fun ps => ∃ p, ps = [p] ∧ UsePair id p) := by
        refine (Eats.normal (r := .useStatement) rfl ((Eats.str (t := %s"use")).seqL ((blank_stops hw2.1 hst).seqL (habs.seqR (blank_stops hw' hu'))))).mono ?_
        rintro _ ⟨t, _, rfl, ps', rfl⟩
        exact ⟨_, rfl, rfl, ps', rfl⟩
      refine ⟨(hone.repCons hrest).mono ?_, .inr ((hone.seq hrest).mono ?_)⟩
      all_goals
        rintro _ ⟨_, _, rfl, ⟨p, rfl, hp⟩, hq⟩
        exact .cons hp hq
  obtain ⟨h1, w', u', e, hw', hu', -, hor⟩ := main
  refine ⟨h1, w', u', e, hw', hu', ?_⟩
  rcases hor with ⟨rfl, rfl⟩ | h
  · refine (Eats.optNone (failsNormal (r := .useSection) rfl (.seqFail1 huse))).mono ?_
    rintro _ rfl v mb more
    rfl
  · refine (Eats.opt (Eats.normal (r := .useSection) rfl h)).mono ?_
    rintro _ ⟨t, ps, rfl, hps⟩ v mb more
    change (IdlParser.useLoop mb ps >>= fun mb => IdlParser.sectionLoop flt v (some mb) more) = _
    rw [useLoop_any hids hps mb]
    rfl

/-! ### Control and metadata statements -/

theorem entry_any {flt : Str → Option F64} {e : Entry} {rl : IdlRule} {kw sign w u : Str} (hkind : IdlGrammar.kind rl = .normal)
    (hbody : IdlGrammar.body rl = (.str kw ~> r .ws ~> r .nodeObjectKey ~> r .ws ~> .str sign ~> r .ws ~> r .nodeValue ~> r .ws))
    (hsign : sign = %s":" ∨ sign = %s"=") (hw : Blank w) (he : Entry.Ok e) (hv : ValueText flt e.value e.text) (ha : Gap e.after) (hu : Stops u) :
    Eats (r rl) (kw ++ (w ++ (e.show sign ++ (e.after ++ u)))) u
      (fun ps => ∃ p, ps = [p] ∧ p.asRule = rl ∧ IdlParser.kvpOf flt p = .ok (e.key, e.value)) := by
  have hst := stops_entry he sign (e.after ++ u)
  obtain ⟨h1, h2, h3⟩ := he
  have ht := valueText_node hv
  have eq : e.show sign ++ (e.after ++ u) = e.key ++ (e.before ++ (sign ++ (e.behind ++ (e.text ++ (e.after ++ u))))) := by simp [Entry.show]
  rw [eq] at hst ⊢
  have hs : ∀ u, NameEnd (sign ++ u) ∧ Stops (sign ++ u) := by
    intro u
    rcases hsign with rfl | rfl
    · exact ⟨nameEnd_cons (by decide), stops_of_head ⟨_, _, rfl, by decide⟩⟩
    · exact ⟨nameEnd_cons (by decide), stops_of_head ⟨_, _, rfl, by decide⟩⟩
  refine (Eats.normal (r := rl) hkind (by
    rw [hbody]
    exact Eats.str.seqL ((blank_stops hw hst).seqL ((anyKey_eats h1 (nameEnd_blank h2 (hs _).1)).seq ((blank_stops h2 (hs _).2).seqL
      ((Eats.str (t := sign)).seqL ((blank_stops h3 (ws_none (solid_value ht.head _))).seqL
        ((ht.eats _ (valueEnd_gap ha)).seqR (blank_stops ha.1 hu)))))))) ).mono ?_
  rintro _ ⟨t, _, rfl, _, _, rfl, ⟨k, rfl, hk⟩, p, rfl, hp1, hp2⟩
  refine ⟨_, rfl, rfl, ?_⟩
  simp only [IdlParser.kvpOf, List.cons_append, List.nil_append]
  exact kvpLoop_key hk hp1 hp2

theorem section_any {flt : Str → Option F64} {es : List (Str × Value)} {s u : Str} {rl sec : IdlRule} {kw sign : Str} (hkind : IdlGrammar.kind rl = .normal)
    (hbody : IdlGrammar.body rl = (.str kw ~> r .ws ~> r .nodeObjectKey ~> r .ws ~> .str sign ~> r .ws ~> r .nodeValue ~> r .ws))
    (hsec : IdlGrammar.kind sec = .normal ∧ IdlGrammar.body sec = .rep (r rl)) (hkw : ∀ u, Stops (kw ++ u))
    (hsign : sign = %s":" ∨ sign = %s"=") (h : SectionText flt kw sign es s) (hu : Stops u) (hend : Parses idlGrammar false (r rl) u none) :
    Stops (s ++ u) ∧ Eats (r sec) (s ++ u) u
      (fun ps => ∃ p, ps = [p] ∧ p.asRule = sec ∧ IdlParser.entriesOf flt rl [] p.intoInner = .ok (AMap.ofList es)) := by
  have main : Stops (s ++ u) ∧ Eats (.rep (r rl)) (s ++ u) u (List.Forall₂ (fun e p => Pair.asRule p = rl ∧ IdlParser.kvpOf flt p = .ok e) es) := by
    induction h with
    | nil =>
      refine ⟨hu, (Eats.repNil hend).mono ?_⟩
      rintro _ rfl
      exact .nil
    | @cons w e es v hw _ he hv ha _ ih =>
      have eq : kw ++ w ++ e.show sign ++ e.after ++ v ++ u = kw ++ (w ++ (e.show sign ++ (e.after ++ (v ++ u)))) := by simp
      rw [eq]
      refine ⟨hkw _, ((entry_any hkind hbody hsign hw he hv ha ih.1).repCons ih.2).mono ?_⟩
      rintro _ ⟨_, _, rfl, ⟨p, rfl, hp⟩, hq⟩
      exact .cons hp hq
  refine ⟨main.1, (Eats.normal (r := sec) hsec.1 (by rw [hsec.2]; exact main.2)).mono ?_⟩
  rintro _ ⟨t, ps, rfl, hp⟩
  exact ⟨_, rfl, rfl, entriesOf_forall hp []⟩

/-! ### Files -/

/-- The builders of a file, in order. -/
def fileBuilders (f : File) : List Builder := f.uses.map importRef ++ f.shapes

theorem noControl {kw : Str} (h : stripPrefix %s"$" kw = none) : Parses idlGrammar false (r .controlStatement) kw none :=
  failsNormal rfl (.seqFail1 (.strFail h))

theorem sectionText_head {flt : Str → Option F64} {kw sign : Str} {es : List (Str × Value)} {s : Str} (h : SectionText flt kw sign es s) :
    s = [] ∨ ∃ u, s = kw ++ u := by
  cases h with
  | nil => exact .inl rfl
  | @cons w e es v => exact .inr ⟨w ++ (e.show sign ++ (e.after ++ v)), by simp⟩

/-- The pairs of the first two sections. -/
theorem front_any {flt : Str → Option F64} {w c m u rest : Str} {es es' : List (Str × Value)} {E : Expr IdlRule} {Q : List (Pair IdlRule) → Prop} (hw : Blank w)
    (hc : SectionText flt %s"$" %s":" es c) (hm : SectionText flt %s"metadata" %s"=" es' m) (hu : Stops u)
    (hu1 : stripPrefix %s"$" u = none) (hu2 : stripPrefix %s"metadata" u = none) (h : Eats E u rest Q) :
    Eats (.soi ~> (r .ws ~> (r .controlSection ~> (r .metadataSection ~> E)))) (w ++ (c ++ (m ++ u))) rest
      (fun ps => ∃ p q qs, ps = p :: q :: qs ∧ p.asRule = .controlSection ∧ IdlParser.entriesOf flt .controlStatement [] p.intoInner = .ok (AMap.ofList es) ∧
        q.asRule = .metadataSection ∧ IdlParser.entriesOf flt .metadataStatement [] q.intoInner = .ok (AMap.ofList es') ∧ Q qs) := by
  obtain ⟨s1, h1⟩ := section_any (sec := .metadataSection) (rl := .metadataStatement) rfl rfl ⟨rfl, rfl⟩ (fun u => stops_of_head ⟨'m', _, rfl, by decide⟩) (.inr rfl) hm hu
    (failsNormal rfl (.seqFail1 (.strFail hu2)))
  have hmu : stripPrefix %s"$" (m ++ u) = none := by
    rcases sectionText_head hm with rfl | ⟨x, rfl⟩
    · exact hu1
    · rfl
  obtain ⟨s2, h2⟩ := section_any (sec := .controlSection) (rl := .controlStatement) rfl rfl ⟨rfl, rfl⟩ (fun u => stops_of_head ⟨'$', _, rfl, by decide⟩) (.inl rfl) hc s1
    (noControl hmu)
  refine (Eats.soi.seqL ((blank_stops hw s2).seqL (h2.seq (h1.seq h)))).mono ?_
  rintro _ ⟨_, _, rfl, ⟨p, rfl, hp⟩, _, qs, rfl, ⟨q, rfl, hq⟩, hqs⟩
  exact ⟨p, q, qs, rfl, hp.1, hp.2, hq.1, hq.2, hqs⟩

theorem nextInto_eq {α : Type} {rule : IdlRule} {g : Pair IdlRule → Except Err α} {p : Pair IdlRule} {ps : List (Pair IdlRule)} (hp : p.asRule = rule) :
    IdlParser.nextInto rule g (p :: ps) = g p >>= fun a => pure (a, ps) := by
  change (if p.asRule = rule then g p >>= fun a => pure (a, ps) else SelParser.unexpected) = _
  rw [if_pos hp]

theorem nextInto_ok {α : Type} {rule : IdlRule} {g : Pair IdlRule → Except Err α} {p : Pair IdlRule} {a : α} {ps : List (Pair IdlRule)} (hp : p.asRule = rule)
    (hg : g p = .ok a) : IdlParser.nextInto rule g (p :: ps) = .ok (a, ps) := by
  rw [nextInto_eq hp, hg]
  rfl

/-- What is read: the version, and then the shape section. -/
theorem read_front {flt : Str → Option F64} {s : Str} {es es' : List (Str × Value)} {E : Expr IdlRule} {o : Version → Except Err (Option ModelBuilder)}
    (hE : (r .shapeSection ~> .eoi : Expr IdlRule) = E)
    (h : Eats (.soi ~> (r .ws ~> (r .controlSection ~> (r .metadataSection ~> E)))) s []
      (fun ps => ∃ p q qs, ps = p :: q :: qs ∧ p.asRule = .controlSection ∧ IdlParser.entriesOf flt .controlStatement [] p.intoInner = .ok (AMap.ofList es) ∧
        q.asRule = .metadataSection ∧ IdlParser.entriesOf flt .metadataStatement [] q.intoInner = .ok (AMap.ofList es') ∧
        ∃ x more, qs = x :: more ∧ x.asRule = .shapeSection ∧ ∀ v, IdlParser.sectionLoop flt v none x.intoInner = o v)) :
    readBuilder flt s = (IdlParser.versionOf (AMap.ofList es) >>= fun v => o v >>= fun mb => pure (mb.map fun mb => mb.metaDataFrom (AMap.ofList es'))) := by
  subst hE
  obtain ⟨t, ps, hparse, _, _, rfl, p, q, qs, rfl, hp1, hp2, hq1, hq2, x, more, rfl, hx1, hx2⟩ := Eats.normal (r := .idl) rfl h
  rename_i t'
  have hm : matchIdl s = some [Pair.mk .idl t' (p :: q :: x :: more)] := (matchIdl_iff _ _).mpr ⟨_, hparse, rfl⟩
  unfold readBuilder
  rw [hm]
  change IdlParser.readIdl flt (Pair.mk .idl t' (p :: q :: x :: more)) = _
  change (IdlParser.nextInto .controlSection (fun p => IdlParser.entriesOf flt .controlStatement [] p.intoInner) (p :: q :: x :: more) >>= fun y =>
    IdlParser.versionOf y.1 >>= fun v => IdlParser.nextInto .metadataSection (fun p => IdlParser.entriesOf flt .metadataStatement [] p.intoInner) y.2 >>= fun z =>
      IdlParser.nextInto .shapeSection (fun p => IdlParser.sectionLoop flt v none p.intoInner) z.2 >>= fun o =>
        pure (o.1.map fun mb => mb.metaDataFrom z.1)) = _
  rw [nextInto_ok hp1 hp2]
  change (IdlParser.versionOf (AMap.ofList es) >>= fun v => IdlParser.nextInto .metadataSection (fun p => IdlParser.entriesOf flt .metadataStatement [] p.intoInner) (q :: x :: more) >>= fun z =>
      IdlParser.nextInto .shapeSection (fun p => IdlParser.sectionLoop flt v none p.intoInner) z.2 >>= fun o =>
        pure (o.1.map fun mb => mb.metaDataFrom z.1)) = _
  rw [nextInto_ok hq1 hq2]
  cases IdlParser.versionOf (AMap.ofList es) with
  | error e => rfl
  | ok v =>
    change (IdlParser.nextInto .shapeSection (fun p => IdlParser.sectionLoop flt v none p.intoInner) (x :: more) >>= fun o => pure (o.1.map fun mb => mb.metaDataFrom (AMap.ofList es'))) = o v >>= _
    rw [nextInto_eq hx1]
    simp only [hx2]
    cases o v <;> rfl

theorem readBuilder_any {flt : Str → Option F64} {f : File} {s : Str} (h : FileText flt f s) :
    readBuilder flt s = (IdlParser.versionOf (AMap.ofList f.control) >>= fun v =>
      pure (some ((insertAll ⟨v, f.ns, [], []⟩ (fileBuilders f)).metaDataFrom (AMap.ofList f.metadata)))) := by
  obtain ⟨hw, hc, hm, hns, hw1, hus, hw2, hor, hb⟩ := h
  rename_i w c m w1 us w2 b
  obtain ⟨hb1, hb2, -, -⟩ := statements_any hb
  have hend : NameEnd (w2 ++ b) := by
    rcases hor with hor | hor
    · exact nameEnd_gap ⟨hw2, hor⟩
    · rw [hor] at hb
      cases hb
      exact nameEnd_blank hw2 nameEnd_nil
  obtain ⟨hn, w', u', e, hw', hu', husec⟩ := uses_any (flt := flt) hus hw2 hb1 hend hb2
  have hst : Eats (r .namespaceStatement) (%s"namespace" ++ (w1 ++ (f.ns ++ (w' ++ u')))) u' (fun ps => ∃ t, ps = [.mk .namespaceStatement t [.mk .nsName f.ns []]]) := by
    have hs : Stops (f.ns ++ (w' ++ u')) := by
      obtain ⟨c, x, e, hc⟩ := namespace_head hns
      rw [e]
      exact head_stops ⟨c, _, rfl, hc⟩
    refine (Eats.normal (r := .namespaceStatement) rfl (Eats.str.seqL ((blank_stops hw1.1 hs).seqL
      ((namespace_eats hns (by rw [← e]; exact fun c s' h => ⟨(hn c s' h).1, (hn c s' h).2.1⟩)).seqR (blank_stops hw' hu'))))).mono ?_
    rintro _ ⟨t, _, rfl, rfl⟩
    exact ⟨t, rfl⟩
  have heoi : Eats .eoi [] [] (fun _ => True) := ⟨[], _, .eoi, trivial⟩
  have hsec := Eats.normal (r := .shapeSection) rfl (Eats.opt (hst.seq (husec.seq (statementsSection_any hb))))
  have eq : w ++ c ++ m ++ %s"namespace" ++ w1 ++ f.ns ++ us ++ w2 ++ b = w ++ (c ++ (m ++ (%s"namespace" ++ (w1 ++ (f.ns ++ (w' ++ u')))))) := by
    rw [← e]; simp
  rw [eq]
  have := read_front (o := fun v => .ok (some (insertAll ⟨v, f.ns, [], []⟩ (fileBuilders f)))) rfl ((front_any hw hc hm (stops_of_head ⟨'n', _, rfl, by decide⟩) rfl rfl (hsec.seq heoi)).mono (by
    rintro _ ⟨p, q, _, rfl, h1, h2, h3, h4, _, z, rfl, ⟨t, _, rfl, _, _, rfl, ⟨t', rfl⟩, p1, p2, rfl, hp1, hp2⟩, -⟩
    refine ⟨p, q, _, rfl, h1, h2, h3, h4, _, _, rfl, rfl, fun v => ?_⟩
    have hnew : ModelBuilder.new v f.ns = .ok ⟨v, f.ns, [], []⟩ := by
      unfold ModelBuilder.new
      rw [show NamespaceID.fromStr f.ns = .ok f.ns from ?_]
      · rfl
      · exact ((C02_namespace_syntax f.ns).1 f.ns).mpr ⟨rfl, namespace_valid hns⟩
    change (ModelBuilder.new v f.ns >>= fun mb => IdlParser.sectionLoop flt v (some mb) (p1 ++ p2)) = _
    rw [hnew]
    change IdlParser.sectionLoop flt v (some ⟨v, f.ns, [], []⟩) (p1 ++ p2) = _
    rw [hp1]
    have := hp2 v (insertAll ⟨v, f.ns, [], []⟩ (f.uses.map importRef)) []
    rw [List.append_nil] at this
    rw [this, ← insertAll_append]
    rfl))
  exact this

theorem insertAll_shapes (bs : List Builder) (mb : ModelBuilder) : insertAll mb bs = { mb with shapes := (bs.map fun b => (b.name, b)).foldl (fun m e => AMap.insert m e.1 e.2) mb.shapes } := by
  induction bs generalizing mb with
  | nil => rfl
  | cons b bs ih =>
    change insertAll (mb.insert b) bs = _
    rw [ih]
    rfl

theorem file_builder (f : File) (v : Version) : (insertAll ⟨v, f.ns, [], []⟩ (fileBuilders f)).metaDataFrom (AMap.ofList f.metadata) = f.builder v := by
  rw [metaDataFrom_eq, insertAll_shapes]
  have : (AMap.ofList f.metadata).foldl (fun m e => AMap.insert m e.1 e.2) [] = AMap.ofList f.metadata := AMap.ofList_of_wf (AMap.wf_ofList _)
  unfold File.builder
  simp only [this]
  congr 1
  simp [fileBuilders, AMap.ofList, importRef, Function.comp_def]

end Verif
