/-
Files of the Smithy IDL: what is read is what the text says.
-/
import Verif.IdlLooseShapes
import Verif.IdlLayoutFiles

namespace Verif
open Peg Spec Spec.Idl
open IdlGrammar (r)

/-! ### Repetitions -/

theorem Got.inv_plus {m : Bool} {a : Expr IdlRule} {s t s' ps} (h : Got m (.plus a) s t s' ps) :
    ∃ xs : List (Str × List (Pair IdlRule)), (∀ x ∈ xs, Part m a x) ∧ t = xs.flatMap (·.1) ∧ ps = xs.flatMap (·.2) := by
  obtain ⟨t1, _, _, t2, _, h1, h2, rfl, rfl⟩ := h.inv_seq
  obtain ⟨⟨xs, hx, rfl, rfl⟩, -⟩ := h2.inv_rep
  refine ⟨(t1, _) :: xs, ?_, rfl, rfl⟩
  intro x hx'
  rcases List.mem_cons.mp hx' with rfl | hx'
  · exact ⟨_, _, h1⟩
  · exact hx x hx'

/-! ### Shapes -/

/-- The pair of a statement, or of one that is refused. -/
def StatementRead (flt : Str → Option F64) (p : Pair IdlRule) (t : Str) : Prop :=
  p.asRule = .applyStatement ∨ (p.asRule = .shapeStatement ∧ ∀ mb,
    Yields (fun x => ∃ b, Loose.StatementText flt b t ∧ x = mb.insert b) (IdlParser.statementLoop flt mb [] [] p.intoInner))

theorem statementsLoop_says {flt : Str → Option F64} {ps : List (Pair IdlRule)} {u : Str} (h : Loose.Spaced (StatementRead flt) ps u) : ∀ mb,
    Yields (fun x => ∃ bs, Loose.Spaced (Loose.StatementText flt) bs u ∧ x = insertAll mb bs) (IdlParser.statementsLoop flt mb ps) := by
  induction h with
  | nil h => intro mb x hx; cases hx; exact ⟨[], .nil h, rfl⟩
  | @cons w p t ps u hw hp _ ih =>
    intro mb x hx
    obtain ⟨rl, pt, pp⟩ := p
    rcases hp with hp | ⟨hp, hb⟩
    · cases hp; cases hx
    · cases hp
      obtain ⟨mb', e1, e2⟩ := ok_of_bind (x := IdlParser.statementLoop flt mb [] [] pp) (f := fun mb => IdlParser.statementsLoop flt mb ps) hx
      obtain ⟨b, h1, rfl⟩ := hb mb _ e1
      obtain ⟨bs, h2, rfl⟩ := ih _ _ e2
      exact ⟨b :: bs, .cons hw h1 h2, rfl⟩

theorem statements_says {flt : Str → Option F64} {s t s' ps} (h : Got false (r .shapeStatements) s t s' ps) :
    ∃ p, ps = [p] ∧ p.asRule = .shapeStatements ∧ Loose.Spaced (StatementRead flt) p.intoInner t := by
  obtain ⟨qs, rfl, k⟩ := h.inv_normal rfl
  refine ⟨_, rfl, rfl, ?_⟩
  obtain ⟨xs, hx, rfl, rfl⟩ := Got.inv_plus k
  refine spaced_parts fun x hm => ?_
  obtain ⟨_, _, hg⟩ := hx x hm
  rcases hg.inv_choice with g | ⟨-, g⟩
  · obtain ⟨p, t', w, e1, hp, e2, hw, hb⟩ := statement_says (flt := flt) g
    rw [e1, e2]
    exact spaced_after (spaced_one (.inr ⟨hp, hb⟩)) hw
  · obtain ⟨qs, e1, -⟩ := g.inv_normal rfl
    rw [e1]
    exact spaced_one (.inl rfl)

/-! ### Imports -/

/-- The pair of an import. -/
def UseRead (p : Pair IdlRule) (t : Str) : Prop :=
  p.asRule = .useStatement ∧ ∃ id ps more, Loose.UseText id t ∧ p.intoInner = .mk .absoluteRootShapeId (id.ns ++ %s"#" ++ id.name) ps :: more

theorem useLoop_says {ps : List (Pair IdlRule)} {u : Str} (h : Loose.Spaced UseRead ps u) : ∀ mb,
    Yields (fun x => ∃ ids, Loose.Spaced Loose.UseText ids u ∧ x = insertAll mb (ids.map importRef)) (IdlParser.useLoop mb ps) := by
  induction h with
  | nil h => intro mb x hx; cases hx; exact ⟨[], .nil h, rfl⟩
  | @cons w p t ps u hw hp _ ih =>
    intro mb x hx
    obtain ⟨rl, pt, pp⟩ := p
    obtain ⟨hp, id, qs, more, hid, e⟩ := hp
    cases hp
    cases e
    obtain ⟨mb', e1, e2⟩ := ok_of_bind (x := mb.uses (id.ns ++ %s"#" ++ id.name)) (f := fun mb => IdlParser.useLoop mb ps) hx
    have hs := hid
    obtain ⟨_, ⟨h1, h2, h3⟩, -, -⟩ := hid
    obtain ⟨ns, n, m⟩ := id
    simp only at h1 h2 h3 e1
    subst h3
    have hn : ShapeID.fromStr (ns ++ %s"#" ++ n) = .ok ⟨ns, n, none⟩ := ((C24_name_syntax _).2.1 _).mp (nameText_fromStr (.absolute h1 h2))
    have hmb : mb' = mb.insert (importRef ⟨ns, n, none⟩) := by
      unfold ModelBuilder.uses at e1
      rw [hn] at e1
      cases e1
      rfl
    subst hmb
    obtain ⟨ids, h4, rfl⟩ := ih _ _ e2
    exact ⟨⟨ns, n, none⟩ :: ids, .cons hw hs h4, rfl⟩

theorem uses_says {s t s' ps} (h : Got false (r .useSection) s t s' ps) :
    ∃ p, ps = [p] ∧ p.asRule = .useSection ∧ Loose.Spaced UseRead p.intoInner t := by
  obtain ⟨qs, rfl, k⟩ := h.inv_normal rfl
  refine ⟨_, rfl, rfl, ?_⟩
  obtain ⟨xs, hx, rfl, rfl⟩ := Got.inv_plus k
  refine spaced_parts fun x hm => ?_
  obtain ⟨_, _, hg⟩ := hx x hm
  obtain ⟨qs, e1, g⟩ := hg.inv_normal rfl
  obtain ⟨t1, _, _, _, _, h1, k1, e2, rfl⟩ := g.inv_seq
  obtain ⟨w, _, _, _, _, h2, k2, rfl, rfl⟩ := k1.inv_seq
  obtain ⟨y, _, _, w', _, h3, h4, rfl, rfl⟩ := k2.inv_seq
  obtain ⟨rfl, rfl⟩ := h1.inv_str
  obtain ⟨hw, rfl, -⟩ := got_ws h2
  obtain ⟨hw', rfl, -⟩ := got_ws h4
  obtain ⟨rs, rfl, g3⟩ := h3.inv_normal rfl
  obtain ⟨ns, _, _, _, _, h5, k5, rfl, rfl⟩ := g3.inv_seq
  obtain ⟨c, _, _, n, _, h6, h7, rfl, rfl⟩ := k5.inv_seq
  obtain ⟨hns, rfl⟩ := got_namespace h5
  obtain ⟨rfl, rfl⟩ := h6.inv_str
  obtain ⟨hn, rfl⟩ := got_ident h7
  rw [e1, e2]
  have : %s"use" ++ (w ++ (ns ++ (%s"#" ++ n) ++ w')) = %s"use" ++ w ++ ns ++ %s"#" ++ n ++ w' := by simp
  rw [this]
  have e : ns ++ (%s"#" ++ n) = ns ++ %s"#" ++ n := by simp
  rw [e]
  exact spaced_after (spaced_one ⟨rfl, ⟨ns, n, none⟩, _, _, ⟨w, ⟨hns, hn, rfl⟩, hw, rfl⟩, rfl⟩) hw'

/-! ### Control statements and metadata -/

theorem entriesOf_says {flt : Str → Option F64} {rl : IdlRule} {kw sign : Str} {ps : List (Pair IdlRule)} {u : Str}
    (h : Loose.Spaced (fun p t => Yields (fun e => Loose.FrontText flt kw sign e t) (IdlParser.kvpOf flt p)) ps u) : ∀ m,
    Yields (fun x => ∃ es, Loose.Spaced (Loose.FrontText flt kw sign) es u ∧ x = es.foldl (fun m e => AMap.insert m e.1 e.2) m) (IdlParser.entriesOf flt rl m ps) := by
  induction h with
  | nil h => intro m x hx; cases hx; exact ⟨[], .nil h, rfl⟩
  | @cons w p t ps u hw hp _ ih =>
    intro m x hx
    unfold IdlParser.entriesOf at hx
    split at hx
    · obtain ⟨⟨k, v⟩, e1, e2⟩ := ok_of_bind hx
      obtain ⟨es, h2, rfl⟩ := ih _ _ e2
      exact ⟨(k, v) :: es, .cons hw (hp _ e1) h2, rfl⟩
    · cases hx

theorem section_says {flt : Str → Option F64} {rl sec : IdlRule} {kw sign : Str} (hkind : IdlGrammar.kind rl = .normal)
    (hbody : IdlGrammar.body rl = (.str kw ~> r .ws ~> r .nodeObjectKey ~> r .ws ~> .str sign ~> r .ws ~> r .nodeValue ~> r .ws))
    (hsec : IdlGrammar.kind sec = .normal ∧ IdlGrammar.body sec = .rep (r rl)) {s t s' ps} (h : Got false (r sec) s t s' ps) :
    ∃ p, ps = [p] ∧ p.asRule = sec ∧ Yields (fun x => ∃ es, Loose.Spaced (Loose.FrontText flt kw sign) es t ∧ x = AMap.ofList es) (IdlParser.entriesOf flt rl [] p.intoInner) := by
  obtain ⟨qs, rfl, k⟩ := h.inv_normal hsec.1
  refine ⟨_, rfl, rfl, ?_⟩
  rw [hsec.2] at k
  obtain ⟨⟨xs, hx, rfl, rfl⟩, -⟩ := k.inv_rep
  refine entriesOf_says (spaced_parts fun x hm => ?_) []
  obtain ⟨_, _, hg⟩ := hx x hm
  obtain ⟨qs, e1, g⟩ := hg.inv_normal hkind
  rw [hbody] at g
  obtain ⟨t1, _, _, _, _, h1, k1, e2, rfl⟩ := g.inv_seq
  obtain ⟨w, _, _, _, _, h2, k2, rfl, rfl⟩ := k1.inv_seq
  obtain ⟨key, _, _, _, _, h3, k3, rfl, rfl⟩ := k2.inv_seq
  obtain ⟨b, _, _, _, _, h4, k4, rfl, rfl⟩ := k3.inv_seq
  obtain ⟨sg, _, _, _, _, h5, k5, rfl, rfl⟩ := k4.inv_seq
  obtain ⟨b', _, _, _, _, h6, k6, rfl, rfl⟩ := k5.inv_seq
  obtain ⟨y, _, _, w', _, h7, h8, rfl, rfl⟩ := k6.inv_seq
  obtain ⟨rfl, rfl⟩ := h1.inv_str
  obtain ⟨hw, rfl, -⟩ := got_ws h2
  obtain ⟨kp, rfl, hk⟩ := got_key h3
  obtain ⟨hb, rfl, -⟩ := got_ws h4
  obtain ⟨rfl, rfl⟩ := h5.inv_str
  obtain ⟨hb', rfl, -⟩ := got_ws h6
  obtain ⟨vp, rfl, hv⟩ := node_says (flt := flt) h7
  obtain ⟨hw', rfl, -⟩ := got_ws h8
  rw [e1, e2]
  have e : t1 ++ (w ++ (key ++ (b ++ (sg ++ (b' ++ (y ++ w')))))) = (t1 ++ w ++ (key ++ b ++ sg ++ b' ++ y)) ++ w' := by simp
  rw [e]
  refine spaced_after (spaced_one ?_) hw'
  rintro ⟨k', v⟩ hx
  obtain ⟨rfl, h9⟩ := kvp_says (sign := sg) ⟨hk, hb, hb', hv, rfl, rfl⟩ _ hx
  exact ⟨w, _, hw, ⟨b, b', y, hk.text, hb, hb', h9, rfl⟩, rfl⟩

/-! ### The shape section -/

theorem optUses_says {flt : Str → Option F64} {v : Version} {s t s' ps} (h : Got false (.opt (r .useSection)) s t s' ps) : ∀ mb more,
    Yields (fun x => ∃ ids, Loose.Spaced Loose.UseText ids t ∧ IdlParser.sectionLoop flt v (some (insertAll mb (ids.map importRef))) more = .ok x)
      (IdlParser.sectionLoop flt v (some mb) (ps ++ more)) := by
  intro mb more x hx
  rcases h.inv_opt with h | ⟨rfl, rfl, -⟩
  · obtain ⟨p, rfl, hp, hu⟩ := uses_says h
    obtain ⟨rl, pt, pp⟩ := p
    cases hp
    obtain ⟨mb', e1, e2⟩ := ok_of_bind (x := IdlParser.useLoop mb pp) (f := fun mb => IdlParser.sectionLoop flt v (some mb) more) hx
    obtain ⟨ids, h1, rfl⟩ := useLoop_says hu _ _ e1
    exact ⟨ids, h1, e2⟩
  · exact ⟨[], .nil .nil, hx⟩

theorem optStatements_says {flt : Str → Option F64} {v : Version} {s t s' ps} (h : Got false (.opt (r .shapeStatements)) s t s' ps) : ∀ mb,
    Yields (fun x => ∃ bs, Loose.Spaced (Loose.StatementText flt) bs t ∧ x = some (insertAll mb bs)) (IdlParser.sectionLoop flt v (some mb) ps) := by
  intro mb x hx
  rcases h.inv_opt with h | ⟨rfl, rfl, -⟩
  · obtain ⟨p, rfl, hp, hu⟩ := statements_says (flt := flt) h
    obtain ⟨rl, pt, pp⟩ := p
    cases hp
    obtain ⟨mb', e1, e2⟩ := ok_of_bind (x := IdlParser.statementsLoop flt mb pp) (f := fun mb => IdlParser.sectionLoop flt v (some mb) []) hx
    obtain ⟨bs, h1, rfl⟩ := statementsLoop_says hu _ _ e1
    cases e2
    exact ⟨bs, h1, rfl⟩
  · cases hx
    exact ⟨[], .nil .nil, rfl⟩

theorem shapeSection_says {flt : Str → Option F64} {s t s' ps} (h : Got false (r .shapeSection) s t s' ps) :
    ∃ p, ps = [p] ∧ p.asRule = .shapeSection ∧ ∀ v, Yields (fun x => (t = [] ∧ x = none) ∨ ∃ ns w us b ids bs, SmithyNamespace ns ∧ Blank w ∧
      Loose.Spaced Loose.UseText ids us ∧ Loose.Spaced (Loose.StatementText flt) bs b ∧ t = %s"namespace" ++ w ++ ns ++ us ++ b ∧
      x = some (insertAll ⟨v, ns, [], []⟩ (ids.map importRef ++ bs))) (IdlParser.sectionLoop flt v none p.intoInner) := by
  obtain ⟨qs, rfl, k⟩ := h.inv_normal rfl
  refine ⟨_, rfl, rfl, ?_⟩
  intro v x hx
  rcases k.inv_opt with k | ⟨rfl, rfl, -⟩
  · refine .inr ?_
    obtain ⟨t1, _, _, _, _, h1, k1, rfl, rfl⟩ := k.inv_seq
    obtain ⟨us, _, _, b, _, h2, h3, rfl, rfl⟩ := k1.inv_seq
    obtain ⟨rs, rfl, g1⟩ := h1.inv_normal rfl
    obtain ⟨t4, _, _, _, _, h4, k4, rfl, rfl⟩ := g1.inv_seq
    obtain ⟨w, _, _, _, _, h5, k5, rfl, rfl⟩ := k4.inv_seq
    obtain ⟨ns, _, _, w', _, h6, h7, rfl, rfl⟩ := k5.inv_seq
    obtain ⟨rfl, rfl⟩ := h4.inv_str
    obtain ⟨hw, rfl, -⟩ := got_ws h5
    obtain ⟨hns, rfl⟩ := got_namespace h6
    obtain ⟨hw', rfl, -⟩ := got_ws h7
    obtain ⟨mb, e1, e2⟩ := ok_of_bind (x := ModelBuilder.new v ns) (f := fun mb => IdlParser.sectionLoop flt v (some mb) _) hx
    have hmb : mb = ⟨v, ns, [], []⟩ := by
      unfold ModelBuilder.new NamespaceID.fromStr at e1
      split at e1
      · cases e1; rfl
      · cases e1
    subst hmb
    obtain ⟨ids, i1, i2⟩ := optUses_says h2 _ _ _ e2
    obtain ⟨bs, i3, rfl⟩ := optStatements_says h3 _ _ i2
    refine ⟨ns, w, w' ++ us, b, ids, bs, hns, hw, spaced_before hw' i1, i3, by simp, ?_⟩
    simp [insertAll]
  · cases hx
    exact .inl ⟨rfl, rfl⟩

/-! ### Files -/

/-- What is read is what the text says: a file, or what may stand before a namespace. -/
theorem readBuilder_says {flt : Str → Option F64} {s : Str} {x : Option ModelBuilder} (h : readBuilder flt s = .ok x) :
    ∃ control metadata v, IdlParser.versionOf (AMap.ofList control) = .ok v ∧
      ((x = none ∧ ∃ c m, Loose.Spaced (Loose.FrontText flt %s"$" %s":") control c ∧ Loose.Spaced (Loose.FrontText flt %s"metadata" %s"=") metadata m ∧ s = c ++ m) ∨
        ∃ ns uses shapes, Loose.FileText flt ⟨control, metadata, ns, uses, shapes⟩ s ∧ x = some (File.builder ⟨control, metadata, ns, uses, shapes⟩ v)) := by
  unfold readBuilder at h
  split at h
  · cases h
  · next ps hm =>
    obtain ⟨y, hp, hr⟩ := (matchIdl_iff _ _).mp hm
    cases y with
    | none => cases hr
    | some y =>
      obtain ⟨t, s', ps'⟩ := y
      cases hr
      have hs : s = t ++ s' := hp.split _ _ _ rfl
      obtain ⟨qs, e, k⟩ := Got.inv_normal (x := .idl) rfl hp
      subst e
      obtain ⟨t0, _, _, _, _, h0, k0, rfl, rfl⟩ := k.inv_seq
      obtain ⟨w, _, _, _, _, h1, k1, rfl, rfl⟩ := k0.inv_seq
      obtain ⟨c, _, _, _, _, h2, k2, rfl, rfl⟩ := k1.inv_seq
      obtain ⟨m, _, _, _, _, h3, k3, rfl, rfl⟩ := k2.inv_seq
      obtain ⟨b, _, _, t5, _, h4, h5, rfl, rfl⟩ := k3.inv_seq
      obtain ⟨rfl, rfl, -⟩ := h0.inv_soi
      obtain ⟨hw, rfl, -⟩ := got_ws h1
      obtain ⟨pc, rfl, hpc, hc⟩ := section_says (flt := flt) (sec := .controlSection) (rl := .controlStatement) (kw := %s"$") (sign := %s":") rfl rfl ⟨rfl, rfl⟩ h2
      obtain ⟨pm, rfl, hpm, hmm⟩ := section_says (flt := flt) (sec := .metadataSection) (rl := .metadataStatement) (kw := %s"metadata") (sign := %s"=") rfl rfl ⟨rfl, rfl⟩ h3
      obtain ⟨pb, rfl, hpb, hb⟩ := shapeSection_says (flt := flt) h4
      have heoi := h5.eq
      obtain ⟨e5, rfl, rfl⟩ := h5.inv_eoi
      rw [e5] at heoi
      have hs' : s' = [] := by simpa using heoi.symm
      subst hs'
      obtain ⟨⟨c1, r1⟩, e1, h⟩ := ok_of_bind (b := x) (x := IdlParser.nextInto .controlSection (fun p => IdlParser.entriesOf flt .controlStatement [] p.intoInner) [pc, pm, pb, .mk .EOI [] []])
        (f := fun y => IdlParser.versionOf y.1 >>= fun v => IdlParser.nextInto .metadataSection (fun p => IdlParser.entriesOf flt .metadataStatement [] p.intoInner) y.2 >>= fun z =>
          IdlParser.nextInto .shapeSection (fun p => IdlParser.sectionLoop flt v none p.intoInner) z.2 >>= fun o =>
            (.ok (o.1.map fun mb : ModelBuilder => mb.metaDataFrom z.1) : Except Err (Option ModelBuilder))) h
      rw [nextInto_eq hpc] at e1
      obtain ⟨c2, e1x, e1'⟩ := ok_of_bind e1
      cases e1'
      obtain ⟨v, hv, h⟩ := ok_of_bind h
      obtain ⟨⟨m1, r2⟩, e2, h⟩ := ok_of_bind h
      simp only at e2
      rw [nextInto_eq hpm] at e2
      obtain ⟨m2, e2x, e2'⟩ := ok_of_bind e2
      cases e2'
      obtain ⟨⟨o1, r3⟩, e3, h⟩ := ok_of_bind h
      simp only at e3
      rw [nextInto_eq hpb] at e3
      obtain ⟨o2, e3x, e3'⟩ := ok_of_bind e3
      cases e3'
      cases h
      obtain ⟨control, i1, rfl⟩ := hc _ e1x
      obtain ⟨metadata, i2, rfl⟩ := hmm _ e2x
      refine ⟨control, metadata, v, hv, ?_⟩
      rcases hb v _ e3x with ⟨rfl, rfl⟩ | ⟨ns, w1, us, b, ids, bs, j1, j2, j3, j4, rfl, rfl⟩
      · exact .inl ⟨rfl, w ++ c, m, spaced_before hw i1, i2, by rw [hs]; simp⟩
      · refine .inr ⟨ns, ids, bs, ?_, ?_⟩
        · have := Loose.FileText.mk (f := ⟨control, metadata, ns, ids, bs⟩) (spaced_before hw i1) i2 j1 j2 j3 j4
          rw [hs]
          simpa using this
        · rw [← file_builder]
          rfl

end Verif
