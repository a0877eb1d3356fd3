/-
The sections of a text in the Smithy IDL, and the builder that is read from a written text.
-/
import Verif.IdlShapes
import Verif.IdentityProps

namespace Verif
open Peg Spec IdlGrammar

/-! ### Shapes -/

/-- The shapes that are not placeholders. -/
def resolvedOf (L : List TopLevelShape) : List TopLevelShape := L.filter fun s => !s.isUnresolved

theorem notUse {f : Fmt} {flt : Str → Option F64} {m : Model} {ns : Str} {s : TopLevelShape} (h : WritableKind f flt m ns s.body) (u : Str) :
    Parses idlGrammar false (r .useStatement) (idlShapeText f ns s ++ u) none := by
  refine failsNormal rfl (.seqFail1 (.strFail ?_))
  obtain ⟨id, ts, k⟩ := s
  cases ts with
  | cons e ts => rfl
  | nil =>
    cases h with
    | @simple s => cases s <;> rfl
    | _ => rfl

/-- One of the statements. -/
abbrev anyStatement : Expr IdlRule := r .shapeStatement <||> r .applyStatement

theorem shapes_eats {f : Fmt} {flt : Str → Option F64} {m : Model} {ns : Str} (L : List TopLevelShape)
    (hp : ∀ s ∈ L, s.body = .unresolved → s.traits = [])
    (hs : ∀ s ∈ L, s.body ≠ .unresolved → WritableShape f flt m ns s ∧ WfKind s.body) :
    ∃ w u, L.flatMap (IdlWriter.shape f ns) = w ++ u ∧ White w ∧ Solid' u ∧ Parses idlGrammar false (r .useStatement) u none ∧
      Eats (.rep anyStatement) u [] (List.Forall₂ (fun s => ShapePair flt (shapeRef ns s)) (resolvedOf L)) ∧
      ((resolvedOf L = [] ∧ u = []) ∨ Eats (.plus anyStatement) u [] (List.Forall₂ (fun s => ShapePair flt (shapeRef ns s)) (resolvedOf L))) := by
  induction L with
  | nil =>
    refine ⟨[], [], rfl, white_nil, solid_nil, fails_nil (by decide), (Eats.repNil (fails_nil (by decide))).mono ?_, .inl ⟨rfl, rfl⟩⟩
    rintro _ rfl
    exact .nil
  | cons s L ih =>
    obtain ⟨w, u, e, hw, hu, huse, he, hor⟩ := ih (fun x hx => hp x (by simp [hx])) (fun x hx => hs x (by simp [hx]))
    by_cases hb : s.body = .unresolved
    · have e1 : IdlWriter.shape f ns s = ['\n'] := by
        simp [IdlWriter.shape, IdlWriter.statement, hb, ShapeKind.isUnresolved, hp s (by simp) hb]
      have e2 : resolvedOf (s :: L) = resolvedOf L := by
        simp [resolvedOf, TopLevelShape.isUnresolved, hb, ShapeKind.isUnresolved]
      refine ⟨'\n' :: w, u, ?_, white_nl hw, hu, huse, ?_, ?_⟩
      · rw [List.flatMap_cons, e1, e]; rfl
      · rw [e2]; exact he
      · rw [e2]; exact hor
    · obtain ⟨h1, h2⟩ := hs s (by simp) hb
      have e2 : resolvedOf (s :: L) = s :: resolvedOf L := by
        have : s.isUnresolved = false := by
          have := mt isUnresolved_iff.mp hb
          simpa [TopLevelShape.isUnresolved] using this
        simp [resolvedOf, this]
      have h3 := shape_eats (u := u) h1 h2 (white_nl hw) hu
      have e3 : (s :: L).flatMap (IdlWriter.shape f ns) = [] ++ (idlShapeText f ns s ++ (('\n' :: w) ++ u)) := by
        rw [List.flatMap_cons, shape_eq f ns s hb, e]; simp
      refine ⟨[], _, e3, white_nil, ?_, notUse h1.body _, ?_, .inr ?_⟩
      · obtain ⟨c, x, ec, hc⟩ := idlShapeText_head (f := f) h1.body (('\n' :: w) ++ u)
        rw [ec]
        have : ∀ c ∈ '@' :: identHeads, c ∉ [' ', '\t', '\n', '\r', ',', '/'] := by decide
        exact solid_cons (this c (List.mem_cons.mpr hc))
      · rw [e2]
        refine ((Eats.choiceL h3).repCons he).mono ?_
        rintro _ ⟨_, _, rfl, ⟨p, rfl, hp⟩, hq⟩
        exact .cons hp hq
      · rw [e2]
        refine ((Eats.choiceL h3).seq he).mono ?_
        rintro _ ⟨_, _, rfl, ⟨p, rfl, hp⟩, hq⟩
        exact .cons hp hq

/-- Adding builders one after the other. -/
def insertAll (mb : ModelBuilder) (bs : List Builder) : ModelBuilder := bs.foldl ModelBuilder.insert mb

theorem statementsLoop_forall {flt : Str → Option F64} {bs : List Builder} {ps : List (Pair IdlRule)} (h : List.Forall₂ (ShapePair flt) bs ps)
    (mb : ModelBuilder) : IdlParser.statementsLoop flt mb ps = .ok (insertAll mb bs) := by
  induction h generalizing mb with
  | nil => rfl
  | @cons b p bs ps h _ ih =>
    obtain ⟨rl, t, inner⟩ := p
    obtain ⟨h1, h2⟩ := h
    cases h1
    change (IdlParser.statementLoop flt mb [] [] inner >>= fun mb => IdlParser.statementsLoop flt mb ps) = _
    rw [show IdlParser.statementLoop flt mb [] [] inner = _ from h2 mb]
    exact ih _

/-- The pairs of a part of the shape section: the builders are added. -/
def SectionPairs (flt : Str → Option F64) (bs : List Builder) (ps : List (Pair IdlRule)) : Prop :=
  ∀ v mb more, IdlParser.sectionLoop flt v (some mb) (ps ++ more) = IdlParser.sectionLoop flt v (some (insertAll mb bs)) more

theorem statements_eats {f : Fmt} {flt : Str → Option F64} {m : Model} {ns : Str} (L : List TopLevelShape)
    (hp : ∀ s ∈ L, s.body = .unresolved → s.traits = [])
    (hs : ∀ s ∈ L, s.body ≠ .unresolved → WritableShape f flt m ns s ∧ WfKind s.body) :
    ∃ w u, L.flatMap (IdlWriter.shape f ns) = w ++ u ∧ White w ∧ Solid' u ∧ Parses idlGrammar false (r .useStatement) u none ∧
      Eats (.opt (r .shapeStatements)) u [] (SectionPairs flt ((resolvedOf L).map (shapeRef ns))) := by
  obtain ⟨w, u, e, hw, hu, huse, -, hor⟩ := shapes_eats L hp hs
  refine ⟨w, u, e, hw, hu, huse, ?_⟩
  rcases hor with ⟨h1, rfl⟩ | h
  · refine (Eats.optNone (fails_nil (by decide))).mono ?_
    rintro _ rfl
    rw [h1]
    intro v mb more
    rfl
  · refine (Eats.opt (Eats.normal (r := .shapeStatements) rfl h)).mono ?_
    rintro _ ⟨t, ps, rfl, hps⟩ v mb more
    have := statementsLoop_forall (List.forall₂_map_left_iff.mpr hps) mb
    change (IdlParser.someBuilder (some mb) >>= fun mb => IdlParser.statementsLoop flt mb ps >>= fun mb =>
      IdlParser.sectionLoop flt v (some mb) more) = _
    change (IdlParser.statementsLoop flt mb ps >>= fun mb => IdlParser.sectionLoop flt v (some mb) more) = _
    rw [this]
    rfl

/-! ### Imports -/

/-- The builder of a placeholder. -/
def useRef (s : TopLevelShape) : Builder := ⟨.qualified s.id, [], .reference⟩

theorem useLoop_forall {L : List TopLevelShape} {ps : List (Pair IdlRule)} (hL : ∀ s ∈ L, SmithyId s.id)
    (h : List.Forall₂ (fun s p => Pair.asRule p = .useStatement ∧ ∃ ps', p.intoInner = [.mk .absoluteRootShapeId (ShapeID.display s.id) ps']) (L : List TopLevelShape) ps)
    (mb : ModelBuilder) : IdlParser.useLoop mb ps = .ok (insertAll mb (L.map useRef)) := by
  induction h generalizing mb with
  | nil => rfl
  | @cons s p L ps h _ ih =>
    obtain ⟨rl, t, inner⟩ := p
    obtain ⟨h1, ps', h2⟩ := h
    cases h1
    cases h2
    have : mb.uses (ShapeID.display s.id) = .ok (mb.insert (useRef s)) := by
      unfold ModelBuilder.uses
      rw [smithyId_fromStr (hL s (by simp))]
      rfl
    change (mb.uses (ShapeID.display s.id) >>= fun mb => IdlParser.useLoop mb ps) = _
    rw [this]
    exact ih (fun x hx => hL x (by simp [hx])) _

theorem use_eats {s : TopLevelShape} (h : SmithyId s.id) {w u : Str} (hw : White w) (hu : Solid' u) :
    Eats (r .useStatement) (%s"use " ++ (s.id.display ++ ('\n' :: w ++ u))) u
      (fun ps => ∃ p, ps = [p] ∧ p.asRule = .useStatement ∧ ∃ ps', p.intoInner = [.mk .absoluteRootShapeId s.id.display ps']) := by
  have h2 : Eats (r .absoluteRootShapeId) (s.id.display ++ ('\n' :: w ++ u)) ('\n' :: w ++ u)
      (fun ps => ∃ ps', ps = [.mk .absoluteRootShapeId s.id.display ps']) := by
    rw [smithyId_display h]
    exact absolute_eats h.ns h.name (nameEnd_cons (by decide))
  have hs : Solid' (s.id.display ++ ('\n' :: w ++ u)) := by
    obtain ⟨c, x, e, hc⟩ := (smithyId_text h).head
    rw [e]
    have : ∀ c ∈ identHeads, c ∉ [' ', '\t', '\n', '\r', ',', '/'] := by decide
    exact solid_cons (this c hc)
  refine (Eats.normal (r := .useStatement) rfl ((Eats.str (t := %s"use") (rest := ' ' :: (s.id.display ++ ('\n' :: w ++ u)))).seqL
    ((ws_eats white_space hs).seqL (h2.seqR (ws_eats (white_nl hw) hu))))).mono ?_
  rintro _ ⟨t, _, rfl, ps', rfl⟩
  exact ⟨_, rfl, rfl, ps', rfl⟩

theorem uses_eats {flt : Str → Option F64} (L : List TopLevelShape) (hL : ∀ s ∈ L, SmithyId s.id) {w u : Str} (hw : White w) (hu : Solid' u)
    (huse : Parses idlGrammar false (r .useStatement) u none) :
    ∃ w' u', L.flatMap (fun s => %s"use " ++ s.id.display ++ IdlWriter.nl) ++ (w ++ u) = w' ++ u' ∧ White w' ∧ Solid' u' ∧
      Eats (.opt (r .useSection)) u' u (SectionPairs flt (L.map useRef)) := by
  have main : ∀ L : List TopLevelShape, (∀ s ∈ L, SmithyId s.id) →
      ∃ w' u', L.flatMap (fun s => %s"use " ++ s.id.display ++ IdlWriter.nl) ++ (w ++ u) = w' ++ u' ∧ White w' ∧ Solid' u' ∧
        Eats (.rep (r .useStatement)) u' u (List.Forall₂ (fun s p => Pair.asRule p = .useStatement ∧
          ∃ ps', p.intoInner = [.mk .absoluteRootShapeId (ShapeID.display s.id) ps']) L) ∧
        ((L = [] ∧ u' = u) ∨ Eats (.plus (r .useStatement)) u' u (List.Forall₂ (fun s p => Pair.asRule p = .useStatement ∧
          ∃ ps', p.intoInner = [.mk .absoluteRootShapeId (ShapeID.display s.id) ps']) L)) := by
    intro L
    induction L with
    | nil =>
      intro _
      refine ⟨w, u, rfl, hw, hu, (Eats.repNil huse).mono ?_, .inl ⟨rfl, rfl⟩⟩
      rintro _ rfl
      exact .nil
    | cons s L ih =>
      intro hL
      obtain ⟨w', u', e, hw', hu', he, -⟩ := ih fun x hx => hL x (by simp [hx])
      have h1 := use_eats (hL s (by simp)) hw' hu'
      refine ⟨[], %s"use " ++ (s.id.display ++ ('\n' :: w' ++ u')), ?_, white_nil, solid_cons (by decide), ?_, .inr ?_⟩
      · rw [List.flatMap_cons, List.append_assoc, e]; simp [IdlWriter.nl]
      · refine (h1.repCons he).mono ?_
        rintro _ ⟨_, _, rfl, ⟨p, rfl, hp⟩, hq⟩
        exact .cons hp hq
      · refine (h1.seq he).mono ?_
        rintro _ ⟨_, _, rfl, ⟨p, rfl, hp⟩, hq⟩
        exact .cons hp hq
  obtain ⟨w', u', e, hw', hu', -, hor⟩ := main L hL
  refine ⟨w', u', e, hw', hu', ?_⟩
  rcases hor with ⟨rfl, rfl⟩ | h
  · refine (Eats.optNone (failsNormal (r := .useSection) rfl (.seqFail1 huse))).mono ?_
    rintro _ rfl v mb more
    rfl
  · refine (Eats.opt (Eats.normal (r := .useSection) rfl h)).mono ?_
    rintro _ ⟨t, ps, rfl, hps⟩ v mb more
    change (IdlParser.useLoop mb ps >>= fun mb => IdlParser.sectionLoop flt v (some mb) more) = _
    rw [useLoop_forall hL hps mb]
    rfl

/-! ### The shape section -/

/-- The placeholders that are imported. -/
def usedOf (m : Model) : List TopLevelShape := m.shapesList.filter fun s => s.isUnresolved && s.traits.isEmpty

/-- The shapes of the namespace. -/
def inNamespace (m : Model) (ns : Str) : List TopLevelShape := m.shapesList.filter fun s => identEq s.id.ns ns

theorem insertAll_append (mb : ModelBuilder) (a b : List Builder) : insertAll mb (a ++ b) = insertAll (insertAll mb a) b := by simp [insertAll]

theorem section_eats {f : Fmt} {flt : Str → Option F64} {m : Model} {ns : Str} (h : WritableModel f flt m ns) :
    Eats (r .shapeSection) (IdlWriter.namespaceStatement ns ++ (IdlWriter.uses m ++ IdlWriter.shapes f ns m)) []
      (fun ps => ∃ p, ps = [p] ∧ p.asRule = .shapeSection ∧ ∀ v, IdlParser.sectionLoop flt v none p.intoInner =
        .ok (some (insertAll ⟨v, ns, [], []⟩ ((usedOf m).map useRef ++ (resolvedOf (inNamespace m ns)).map (shapeRef ns))))) := by
  have hmem : ∀ s ∈ m.shapesList, m.shape s.id = some s := by
    intro s hs
    obtain ⟨e, he, rfl⟩ := List.mem_map.mp hs
    have := AMap.get_of_mem h.wf.nodup he
    have hk := h.wf.key e.1 e.2 this
    change AMap.get m.shapes e.2.id = _
    rw [hk]
    exact this
  obtain ⟨w, u, e1, hw, hu, huse, he1⟩ := statements_eats (f := f) (flt := flt) (m := m) (ns := ns) (inNamespace m ns)
    (fun s hs hb => (h.placeholders s.id s (hmem s (List.mem_filter.mp hs).1) hb).1)
    (fun s hs hb => ⟨h.shapes s.id s (hmem s (List.mem_filter.mp hs).1) hb (identEq_sameName.mp (List.mem_filter.mp hs).2),
      (h.wf.shapes s.id s (hmem s (List.mem_filter.mp hs).1)).body⟩)
  obtain ⟨w', u', e2, hw', hu', he2⟩ := uses_eats (flt := flt) (usedOf m)
    (by
      intro s hs
      have := List.mem_filter.mp hs
      have hb := this.2
      simp only [Bool.and_eq_true, TopLevelShape.isUnresolved, isUnresolved_iff] at hb
      exact (h.placeholders s.id s (hmem s this.1) hb.1).2)
    (white_nl hw) hu huse
  have e3 : IdlWriter.uses m ++ IdlWriter.shapes f ns m = w' ++ u' := by
    rw [← e2]
    change (usedOf m).flatMap _ ++ IdlWriter.nl ++ (inNamespace m ns).flatMap (IdlWriter.shape f ns) = _
    rw [e1]
    simp [IdlWriter.nl]
  have e4 : IdlWriter.namespaceStatement ns ++ (IdlWriter.uses m ++ IdlWriter.shapes f ns m) =
      %s"namespace" ++ ([' '] ++ (ns ++ (('\n' :: '\n' :: w') ++ u'))) := by
    rw [e3]; simp [IdlWriter.namespaceStatement, IdlWriter.nl]
  rw [e4]
  have hns : Solid' (ns ++ (('\n' :: '\n' :: w') ++ u')) := by
    obtain ⟨c, x, e, hc⟩ := namespace_head h.nsText
    rw [e]
    have : ∀ c ∈ identHeads, c ∉ [' ', '\t', '\n', '\r', ',', '/'] := by decide
    exact solid_cons (this c hc)
  have hn : Eats (r .nsName) (ns ++ (('\n' :: '\n' :: w') ++ u')) (('\n' :: '\n' :: w') ++ u') (· = [.mk .nsName ns []]) :=
    namespace_eats h.nsText (by intro c s' e; injection e with e _; subst e; decide)
  have hst : Eats (r .namespaceStatement) (%s"namespace" ++ ([' '] ++ (ns ++ (('\n' :: '\n' :: w') ++ u')))) u'
      (fun ps => ∃ t, ps = [.mk .namespaceStatement t [.mk .nsName ns []]]) := by
    refine (Eats.normal (r := .namespaceStatement) rfl (Eats.str.seqL ((ws_eats white_space hns).seqL
      (hn.seqR (ws_eats (white_nl (white_nl hw')) hu'))))).mono ?_
    rintro _ ⟨t, _, rfl, rfl⟩
    exact ⟨t, rfl⟩
  refine (Eats.normal (r := .shapeSection) rfl (Eats.opt (hst.seq (he2.seq he1)))).mono ?_
  rintro _ ⟨t, _, rfl, _, _, rfl, ⟨t', rfl⟩, p1, p2, rfl, hp1, hp2⟩
  refine ⟨_, rfl, rfl, ?_⟩
  intro v
  have hnew : ModelBuilder.new v ns = .ok ⟨v, ns, [], []⟩ := by
    unfold ModelBuilder.new
    rw [show NamespaceID.fromStr ns = .ok ns from ?_]
    · rfl
    · exact ((C02_namespace_syntax ns).1 ns).mpr ⟨rfl, namespace_valid h.nsText⟩
  change (ModelBuilder.new v ns >>= fun mb => IdlParser.sectionLoop flt v (some mb) (p1 ++ p2)) = _
  rw [hnew]
  change IdlParser.sectionLoop flt v (some ⟨v, ns, [], []⟩) (p1 ++ p2) = _
  rw [hp1]
  have := hp2 v (insertAll ⟨v, ns, [], []⟩ ((usedOf m).map useRef)) []
  rw [List.append_nil] at this
  rw [this, insertAll_append]
  rfl

/-! ### Metadata -/

/-- A key of the metadata, as it is read. -/
def quoted (k : Str) : Str := '"' :: k ++ ['"']

theorem metadatum_eats {f : Fmt} {flt : Str → Option F64} {k : Str} {v : Value} {w u : Str} (hk : ∀ c ∈ k, PlainChar c) (hv : WritableValue f flt v)
    (ho : ∀ o, v ≠ .object o) (hw : White w) (hu : Solid' u) :
    Eats (r .metadataStatement) (%s"metadata " ++ '"' :: k ++ %s"\" = " ++ IdlWriter.value f true v ++ '\n' :: w ++ u) u
      (fun ps => ∃ p, ps = [p] ∧ p.asRule = .metadataStatement ∧ IdlParser.kvpOf flt p = .ok (quoted k, v)) := by
  have ev : IdlWriter.value f true v = IdlWriter.value f false v := by
    cases v with
    | object o => exact absurd rfl (ho o)
    | _ => rfl
  have ht := value_text hv
  rw [ev]
  have q := quoted_eats (rest := [' '] ++ ('=' :: ([' '] ++ (IdlWriter.value f false v ++ ('\n' :: w ++ u))))) (fun c hc => plainChar_of (hk c hc))
  have h1 := ht.eats ('\n' :: w ++ u) (valueEnd_cons (by decide))
  have h0 : Eats (r .metadataStatement) (%s"metadata" ++ ([' '] ++ ('"' :: k ++ '"' :: ([' '] ++ ('=' :: ([' '] ++ (IdlWriter.value f false v ++ ('\n' :: w ++ u)))))))) u
      (fun ps => ∃ p, ps = [p] ∧ p.asRule = .metadataStatement ∧ IdlParser.kvpOf flt p = .ok (quoted k, v)) := by
    refine (Eats.normal (r := .metadataStatement) rfl (Eats.str.seqL ((ws_eats white_space (solid_cons (by decide))).seqL
      ((Eats.silent (r := .nodeObjectKey) rfl (.choiceL q)).seq ((ws_eats white_space (solid_cons (by decide))).seqL
      ((Eats.str (t := ['='])).seqL ((ws_eats white_space (solid_value ht.head _)).seqL (h1.seqR (ws_eats (white_nl hw) hu)))))))) ).mono ?_
    rintro _ ⟨t, _, rfl, _, _, rfl, rfl, p, rfl, hp1, hp2⟩
    obtain ⟨rl, t', ps'⟩ := p
    cases hp1
    refine ⟨_, rfl, rfl, ?_⟩
    simp only [IdlParser.kvpOf, List.cons_append, List.nil_append, IdlParser.kvpLoop, Pair.asRule, Pair.asStr, hp2]
    rfl
  simpa using h0

theorem entriesOf_forall {flt : Str → Option F64} {rule : IdlRule} {es : List (Str × Value)} {ps : List (Pair IdlRule)}
    (h : List.Forall₂ (fun e p => Pair.asRule p = rule ∧ IdlParser.kvpOf flt p = .ok e) es ps) (o : AMap Str Value) :
    IdlParser.entriesOf flt rule o ps = .ok (es.foldl (fun m e => AMap.insert m e.1 e.2) o) := by
  induction h generalizing o with
  | nil => rfl
  | @cons e p es ps h _ ih =>
    obtain ⟨k, v⟩ := e
    simp only [IdlParser.entriesOf, h.1, if_true, List.foldl_cons]
    rw [h.2]
    exact ih _

/-- The metadata, as it is read. -/
def quotedMetadata (m : Model) : AMap Str Value := m.metadata.map fun e => (quoted e.1, e.2)

theorem quotedMetadata_wf {m : Model} (h : AMap.Wf m.metadata) : AMap.Wf (quotedMetadata m) := by
  unfold AMap.Wf AMap.keys quotedMetadata at *
  rw [List.map_map]
  have e : ((fun x : Str × Value => x.1) ∘ fun e : Str × Value => (quoted e.1, e.2)) = quoted ∘ fun x => x.1 := rfl
  rw [e, ← List.map_map]
  refine List.Pairwise.map _ ?_ h
  intro a b hab he
  unfold quoted at he
  exact hab (by simpa using he)

theorem metadata_eats {f : Fmt} {flt : Str → Option F64} {m : Model} {ns : Str} (h : WritableModel f flt m ns) {u : Str} (hu : Solid' u)
    (hend : Parses idlGrammar false (r .metadataStatement) u none) :
    Solid' (IdlWriter.metadata f m ++ u) ∧ Eats (r .metadataSection) (IdlWriter.metadata f m ++ u) u
      (fun ps => ∃ p, ps = [p] ∧ p.asRule = .metadataSection ∧ IdlParser.entriesOf flt .metadataStatement [] p.intoInner = .ok (quotedMetadata m)) := by
  have hnl : White ['\n'] := by intro c hc; simp only [List.mem_singleton] at hc; subst hc; decide
  have main : ∀ es : List (Str × Value), es ≠ [] → (∀ e ∈ es, e ∈ m.metadata) →
      Eats (.rep (r .metadataStatement)) (es.flatMap (fun e => %s"metadata " ++ '"' :: e.1 ++ %s"\" = " ++ IdlWriter.value f true e.2 ++ IdlWriter.nl) ++ ('\n' :: u)) u
        (List.Forall₂ (fun e p => Pair.asRule p = .metadataStatement ∧ IdlParser.kvpOf flt p = .ok (quoted e.1, e.2)) es) := by
    intro es
    induction es with
    | nil => intro hne; exact absurd rfl hne
    | cons e es ih =>
      intro _ hin
      obtain ⟨h1, h2, h3⟩ := h.metadata e (hin e (by simp))
      by_cases hes : es = []
      · subst hes
        have := metadatum_eats h1 h2 h3 hnl hu
        have e1 : [e].flatMap (fun e => %s"metadata " ++ '"' :: e.1 ++ %s"\" = " ++ IdlWriter.value f true e.2 ++ IdlWriter.nl) ++ ('\n' :: u) =
            %s"metadata " ++ '"' :: e.1 ++ %s"\" = " ++ IdlWriter.value f true e.2 ++ '\n' :: ['\n'] ++ u := by simp [IdlWriter.nl]
        rw [e1]
        refine (this.repCons (.repNil hend)).mono ?_
        rintro _ ⟨_, _, rfl, ⟨p, rfl, hp⟩, rfl⟩
        exact .cons hp .nil
      · have hs : Solid' (es.flatMap (fun e => %s"metadata " ++ '"' :: e.1 ++ %s"\" = " ++ IdlWriter.value f true e.2 ++ IdlWriter.nl) ++ ('\n' :: u)) := by
          cases es with
          | nil => exact absurd rfl hes
          | cons e es => exact solid_cons (by decide)
        have := metadatum_eats h1 h2 h3 white_nil hs
        have e1 : (e :: es).flatMap (fun e => %s"metadata " ++ '"' :: e.1 ++ %s"\" = " ++ IdlWriter.value f true e.2 ++ IdlWriter.nl) ++ ('\n' :: u) =
            %s"metadata " ++ '"' :: e.1 ++ %s"\" = " ++ IdlWriter.value f true e.2 ++ '\n' :: [] ++
              (es.flatMap (fun e => %s"metadata " ++ '"' :: e.1 ++ %s"\" = " ++ IdlWriter.value f true e.2 ++ IdlWriter.nl) ++ ('\n' :: u)) := by
          rw [List.flatMap_cons]
          simp only [List.append_assoc, List.cons_append, List.nil_append, IdlWriter.nl]
        rw [e1]
        refine (this.repCons (ih hes fun x hx => hin x (by simp [hx]))).mono ?_
        rintro _ ⟨_, _, rfl, ⟨p, rfl, hp⟩, hq⟩
        exact .cons hp hq
  have fin : ∀ {s : Str}, Eats (.rep (r .metadataStatement)) s u
      (List.Forall₂ (fun e p => Pair.asRule p = .metadataStatement ∧ IdlParser.kvpOf flt p = .ok (quoted e.1, e.2)) m.metadata) →
      Eats (r .metadataSection) s u
        (fun ps => ∃ p, ps = [p] ∧ p.asRule = .metadataSection ∧ IdlParser.entriesOf flt .metadataStatement [] p.intoInner = .ok (quotedMetadata m)) := by
    intro s hs
    refine (Eats.normal (r := .metadataSection) rfl hs).mono ?_
    rintro _ ⟨t, ps, rfl, hps⟩
    refine ⟨_, rfl, rfl, ?_⟩
    have h1 : List.Forall₂ (fun e p => Pair.asRule p = .metadataStatement ∧ IdlParser.kvpOf flt p = .ok e) (quotedMetadata m) ps :=
      List.forall₂_map_left_iff.mpr hps
    refine (entriesOf_forall h1 []).trans ?_
    congr 1
    exact AMap.ofList_of_wf (quotedMetadata_wf h.wf.metaNodup)
  unfold IdlWriter.metadata Model.hasMetadata
  cases hm : m.metadata with
  | nil =>
    refine ⟨hu, fin ((Eats.repNil hend).mono ?_)⟩
    rintro _ rfl
    rw [hm]
    exact .nil
  | cons e es =>
    refine ⟨solid_cons (by decide), fin ?_⟩
    have := main (e :: es) (by simp) (by rw [hm]; exact fun _ h => h)
    rw [hm]
    simpa [IdlWriter.nl] using this

/-! ### The whole text -/

theorem control_eats {flt : Str → Option F64} (m : Model) {u : Str} (hu : Solid' u) (hend : Parses idlGrammar false (r .controlStatement) u none) :
    Eats (r .controlSection) (IdlWriter.control m ++ u) u
      (fun ps => ∃ p, ps = [p] ∧ p.asRule = .controlSection ∧
        IdlParser.entriesOf flt .controlStatement [] p.intoInner = .ok [(%s"version", .string m.version.display)]) := by
  have hnl : White ['\n', '\n'] := white_nl (white_nl white_nil)
  have hp : ∀ c ∈ m.version.display, PlainChar c := by
    cases m.version
    intro c hc
    simp only [Version.display, List.mem_cons, List.not_mem_nil, or_false] at hc
    rcases hc with rfl | rfl | rfl <;> (unfold PlainChar; decide)
  have ht := string_text (flt := flt) hp
  have h1 := ht.eats (['\n', '\n'] ++ u) (valueEnd_cons (by decide))
  have hk := key_eats (k := %s"version") (rest := ':' :: ' ' :: ('"' :: m.version.display ++ ['"'] ++ (['\n', '\n'] ++ u)))
    (.plain (by decide) (by decide)) (nameEnd_cons (by decide))
  have h0 : Eats (r .controlStatement) ('$' :: (%s"version" ++ ':' :: ' ' :: ('"' :: m.version.display ++ ['"'] ++ (['\n', '\n'] ++ u)))) u
      (fun ps => ∃ p, ps = [p] ∧ p.asRule = .controlStatement ∧ IdlParser.kvpOf flt p = .ok (%s"version", .string m.version.display)) := by
    refine (Eats.normal (r := .controlStatement) rfl ((Eats.str (t := ['$'])).seqL ((ws_none (solid_cons (by decide))).seqL (hk.seq
      ((ws_none (solid_cons (by decide))).seqL ((Eats.str (t := [':'])).seqL ((ws_eats white_space (solid_value ht.head _)).seqL
      (h1.seqR (ws_eats hnl hu))))))))).mono ?_
    rintro _ ⟨t, _, rfl, _, _, rfl, rfl, p, rfl, hp1, hp2⟩
    obtain ⟨rl, t', ps'⟩ := p
    cases hp1
    refine ⟨_, rfl, rfl, ?_⟩
    simp only [IdlParser.kvpOf, List.cons_append, List.nil_append, IdlParser.kvpLoop, Pair.asRule, Pair.asStr, hp2]
  have e : IdlWriter.control m ++ u = '$' :: (%s"version" ++ ':' :: ' ' :: ('"' :: m.version.display ++ ['"'] ++ (['\n', '\n'] ++ u))) := by
    simp [IdlWriter.control, IdlWriter.nl]
  rw [e]
  refine (Eats.normal (r := .controlSection) rfl (h0.repCons (.repNil hend))).mono ?_
  rintro _ ⟨t, _, rfl, _, _, rfl, ⟨p, rfl, hp⟩, rfl⟩
  refine ⟨_, rfl, rfl, ?_⟩
  exact entriesOf_forall (es := [(%s"version", .string m.version.display)]) (.cons hp .nil) []

/-- The builder that is read from the text. -/
def writtenBuilder (m : Model) (ns : Str) : ModelBuilder :=
  (insertAll ⟨m.version, ns, [], []⟩ ((usedOf m).map useRef ++ (resolvedOf (inNamespace m ns)).map (shapeRef ns))).metaDataFrom (quotedMetadata m)

theorem namespace_notMetadata (ns u : Str) : Parses idlGrammar false (r .metadataStatement) (IdlWriter.namespaceStatement ns ++ u) none := fails 8 (by decide)

theorem notControl {f : Fmt} {m : Model} {ns u : Str} :
    Parses idlGrammar false (r .controlStatement) (IdlWriter.metadata f m ++ (IdlWriter.namespaceStatement ns ++ u)) none := by
  unfold IdlWriter.metadata Model.hasMetadata
  cases m.metadata with
  | nil => exact fails 8 (by decide)
  | cons e es => exact fails 8 (by decide)

theorem readBuilder_write {f : Fmt} {flt : Str → Option F64} {m : Model} {ns : Str} (h : WritableModel f flt m ns) :
    readBuilder flt (writeIdl f ns m) = .ok (some (writtenBuilder m ns)) := by
  have h3 := section_eats h
  have hs3 : Solid' (IdlWriter.namespaceStatement ns ++ (IdlWriter.uses m ++ IdlWriter.shapes f ns m)) := solid_cons (by decide)
  obtain ⟨hs2, h2⟩ := metadata_eats h hs3 (namespace_notMetadata _ _)
  have h1 := control_eats (flt := flt) m hs2 notControl
  have hs1 : Solid' (writeIdl f ns m) := solid_cons (by decide)
  have heoi : Eats .eoi [] [] (fun ps => True) := ⟨[], _, .eoi, trivial⟩
  obtain ⟨t, ps, hparse, hps⟩ := Eats.normal (r := .idl) rfl (Eats.soi.seqL ((ws_none hs1).seqL (h1.seq (h2.seq (h3.seq heoi)))))
  have hm : matchIdl (writeIdl f ns m) = some ps := (matchIdl_iff _ _).mpr ⟨_, hparse, rfl⟩
  obtain ⟨t', _, rfl, _, _, rfl, ⟨p1, rfl, hp1, hq1⟩, _, _, rfl, ⟨p2, rfl, hp2, hq2⟩, _, q, rfl, ⟨p3, rfl, hp3, hq3⟩, -⟩ := hps
  unfold readBuilder
  rw [hm]
  change IdlParser.readIdl flt (.mk .idl t' (p1 :: p2 :: p3 :: q)) = _
  obtain ⟨r1, t1, i1⟩ := p1
  obtain ⟨r2, t2, i2⟩ := p2
  obtain ⟨r3, t3, i3⟩ := p3
  cases hp1
  cases hp2
  cases hp3
  have e1 : IdlParser.nextInto .controlSection (fun p => IdlParser.entriesOf flt .controlStatement [] p.intoInner)
      (.mk .controlSection t1 i1 :: .mk .metadataSection t2 i2 :: .mk .shapeSection t3 i3 :: q) =
      .ok ([(%s"version", .string m.version.display)], .mk .metadataSection t2 i2 :: .mk .shapeSection t3 i3 :: q) := by
    change (IdlParser.entriesOf flt .controlStatement [] i1 >>= fun x => pure (x, _)) = _
    rw [show IdlParser.entriesOf flt .controlStatement [] i1 = _ from hq1]
    rfl
  have e2 : IdlParser.nextInto .metadataSection (fun p => IdlParser.entriesOf flt .metadataStatement [] p.intoInner)
      (.mk .metadataSection t2 i2 :: .mk .shapeSection t3 i3 :: q) = .ok (quotedMetadata m, .mk .shapeSection t3 i3 :: q) := by
    change (IdlParser.entriesOf flt .metadataStatement [] i2 >>= fun x => pure (x, _)) = _
    rw [show IdlParser.entriesOf flt .metadataStatement [] i2 = _ from hq2]
    rfl
  have e3 : ∀ v, IdlParser.nextInto .shapeSection (fun p => IdlParser.sectionLoop flt v none p.intoInner) (.mk .shapeSection t3 i3 :: q) =
      .ok (some (insertAll ⟨v, ns, [], []⟩ ((usedOf m).map useRef ++ (resolvedOf (inNamespace m ns)).map (shapeRef ns))), q) := by
    intro v
    change (IdlParser.sectionLoop flt v none i3 >>= fun x => pure (x, _)) = _
    rw [show IdlParser.sectionLoop flt v none i3 = _ from hq3 v]
    rfl
  have ev : IdlParser.versionOf [(%s"version", .string m.version.display)] = .ok m.version := by cases m.version; rfl
  unfold IdlParser.readIdl
  rw [if_pos (show (Pair.mk IdlRule.idl t' _).asRule = IdlRule.idl from rfl)]
  change (IdlParser.nextInto .controlSection (fun p => IdlParser.entriesOf flt .controlStatement [] p.intoInner)
    (.mk .controlSection t1 i1 :: .mk .metadataSection t2 i2 :: .mk .shapeSection t3 i3 :: q) >>= _) = _
  rw [e1]
  have ok_bind : ∀ {α β : Type} (a : α) (f : α → Except Err β), (Except.ok a >>= f) = f a := fun _ _ => rfl
  simp only [ok_bind, ev, e2, e3]
  rfl

end Verif
