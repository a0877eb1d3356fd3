/-
Members and statements of the Smithy IDL in any layout.
-/
import Verif.IdlLayoutTraits

namespace Verif
open Peg Spec Spec.Idl
open IdlGrammar (r null rank named)

/-! ### Members -/

theorem ident_starts {n : Str} (h : SmithyIdent n) (u : Str) : ∃ c x, n ++ u = c :: x ∧ c ∈ identHeads := by
  obtain ⟨c, x, rfl, hc⟩ := (IdText.name h).head
  exact ⟨c, x ++ u, rfl, hc⟩

theorem head_stops {u : Str} (h : ∃ c x, u = c :: x ∧ c ∈ identHeads) : Stops u := by
  obtain ⟨c, x, rfl, hc⟩ := h
  have : ∀ c ∈ identHeads, c ∉ [' ', '\t', '\n', '\r', ',', '/'] := by decide
  exact stops_of_head ⟨c, x, rfl, this c hc⟩

theorem name_head' {n : ShapeName} {t : Str} (h : NameText n t) (u : Str) : ∃ c x, t ++ u = c :: x ∧ c ∈ identHeads := by
  obtain ⟨c, x, rfl, hc⟩ := nameText_head h
  exact ⟨c, x ++ u, rfl, hc⟩

theorem member_any {flt : Str → Option F64} {m : MemberBuilder} {s : Str} (h : MemberText flt m s) (u : Str) :
    Stops (s ++ u) ∧ (NameEnd u → Eats (r .shapeMemberKvp) (s ++ u) u (fun ps => ∃ p, ps = [p] ∧ p.asRule = .shapeMemberKvp ∧
      IdlParser.memberLoop flt [] [] none none p.intoInner = .ok m)) := by
  obtain ⟨hp, hn, hw, hw', ht⟩ := h
  rename_i n ts target p w w' t
  have e : p ++ n ++ w ++ %s":" ++ w' ++ t ++ u = p ++ (n ++ (w ++ ([':'] ++ (w' ++ (t ++ u))))) := by simp
  rw [e]
  have hh := ident_starts hn (w ++ ([':'] ++ (w' ++ (t ++ u))))
  refine ⟨(preface_eats hp hh (Eats.str (t := []))).1, fun hu => ?_⟩
  have h2 : Eats (r .identifier ~> (r .ws ~> (.str %s":" ~> (r .ws ~> r .shapeId)))) (n ++ (w ++ ([':'] ++ (w' ++ (t ++ u))))) u
      (· = [.mk .identifier n [], .mk .shapeId t []]) := by
    refine ((ident_eats hn (nameEnd_blank hw (nameEnd_cons (by decide)))).seq ((blank_stops hw (stops_of_head ⟨_, _, rfl, by decide⟩)).seqL
      ((Eats.str (t := [':'])).seqL ((blank_stops hw' (head_stops (name_head' ht u))).seqL (name_eats ht hu))))).mono ?_
    rintro _ ⟨_, _, rfl, rfl, rfl⟩
    rfl
  refine (Eats.normal (r := .shapeMemberKvp) rfl (preface_eats hp hh h2).2).mono ?_
  rintro _ ⟨t', _, rfl, docs, tb, q, ps', rfl, hq1, hq2, ha, rfl⟩
  obtain ⟨rl, t'', inner⟩ := q
  cases hq1
  refine ⟨_, rfl, rfl, ?_⟩
  have hnew : MemberBuilder.new n t = .ok ⟨n, [], target⟩ := by
    unfold MemberBuilder.new
    rw [fromStr_smithy hn, nameText_fromStr ht]
    rfl
  refine (memberLoop_docs docs [] _).trans ?_
  simp only [IdlParser.memberLoop, Pair.asRule, List.cons_append, List.nil_append, hq2]
  change (MemberBuilder.new n t >>= fun m => _) = _
  rw [hnew]
  change Except.ok _ = _
  rw [← ha]
  rfl

theorem members_any {flt : Str → Option F64} {ms : List MemberBuilder} {s : Str} (h : MembersText flt ms s) (u : Str) :
    Eats (r .shapeMembers) (s ++ u) u (fun ps => ∃ p, ps = [p] ∧ p.asRule = .shapeMembers ∧ IdlParser.membersOf flt p = .ok ms) := by
  obtain ⟨w, is, hw, his, hp, rfl, rfl⟩ := h
  obtain ⟨h1, h2⟩ := series_eats (x := r .shapeMemberKvp) (text := fun i : MemberBuilder × Str × Str => i.2.1) (after := fun i => i.2.2) (F := NameEnd) (is := is) (rest := '}' :: u)
    (Q := fun i p => p.asRule = .shapeMemberKvp ∧ IdlParser.memberLoop flt [] [] none none p.intoInner = .ok i.1)
    (fun i hi v hv => (member_any (his i hi) v).2 hv) (fun i hi v => (member_any (his i hi) v).1) hp (fun w v hw => nameEnd_gap hw)
    (fun w hw => nameEnd_blank hw (nameEnd_cons (by decide))) (stops_of_head ⟨_, _, rfl, by decide⟩) (fails 24 (by decide))
  have e : %s"{" ++ w ++ is.flatMap (fun i => i.2.1 ++ i.2.2) ++ %s"}" ++ u = ['{'] ++ (w ++ (is.flatMap (fun i => i.2.1 ++ i.2.2) ++ '}' :: u)) := by simp
  rw [e]
  refine (Eats.normal (r := .shapeMembers) rfl ((Eats.str (t := ['{'])).seqL ((blank_stops hw h1).seqL (h2.seqR (Eats.str (t := ['}'])))))).mono ?_
  rintro _ ⟨t, ps, rfl, hp⟩
  exact ⟨_, rfl, rfl, each_forall (List.forall₂_map_left_iff.mpr hp)⟩

/-! ### Statements -/

theorem keyword_any {rl : IdlRule} {kw u rest : Str} {Q : List (Pair IdlRule) → Prop} (hk : (rl, kw) ∈ keywords)
    (h : Eats (r rl) (kw ++ u) rest Q) : Eats (r .shapeBody) (kw ++ u) rest Q := by
  have sf : ∀ {rl t} {e : Expr IdlRule} {s : Str}, IdlGrammar.kind rl = .normal → IdlGrammar.body rl = (.str t ~> e) → stripPrefix t s = none →
      Parses idlGrammar false (r rl) s none := by
    intro rl t e s h1 h2 h3
    exact failsNormal h1 (by rw [h2]; exact .seqFail1 (.strFail h3))
  simp only [keywords, List.mem_cons, Prod.mk.injEq, List.not_mem_nil, or_false] at hk
  refine .silent rfl (.choiceR ?_ ?_)
  · rcases hk with ⟨rfl, rfl⟩ | ⟨rfl, rfl⟩ | ⟨rfl, rfl⟩ | ⟨rfl, rfl⟩ | ⟨rfl, rfl⟩ | ⟨rfl, rfl⟩ | ⟨rfl, rfl⟩ | ⟨rfl, rfl⟩ <;>
      exact run_sound (n := 30) rfl
  · rcases hk with ⟨rfl, rfl⟩ | ⟨rfl, rfl⟩ | ⟨rfl, rfl⟩ | ⟨rfl, rfl⟩ | ⟨rfl, rfl⟩ | ⟨rfl, rfl⟩ | ⟨rfl, rfl⟩ | ⟨rfl, rfl⟩
    · exact .choiceL h
    all_goals refine .choiceR (sf rfl rfl rfl) ?_
    · exact .choiceL h
    all_goals refine .choiceR (sf rfl rfl rfl) ?_
    · exact .choiceL h
    all_goals refine .choiceR (sf rfl rfl rfl) ?_
    · exact .choiceL h
    all_goals refine .choiceR (sf rfl rfl rfl) ?_
    · exact .choiceL h
    all_goals refine .choiceR (sf rfl rfl rfl) ?_
    · exact .choiceL h
    all_goals refine .choiceR (sf rfl rfl rfl) ?_
    · exact .choiceL h
    all_goals refine .choiceR (sf rfl rfl rfl) ?_
    · exact h

theorem named_any {kw n w w' s rest : Str} {b : IdlRule} {Q : List (Pair IdlRule) → Prop} (hn : SmithyIdent n) (hw : Gap w) (hw' : Blank w')
    (hs : ∃ u, s = '{' :: u) (h : Eats (r b) (s ++ rest) rest Q) :
    Eats (named kw b) (kw ++ (w ++ (n ++ (w' ++ (s ++ rest))))) rest (fun ps => ∃ q, ps = .mk .identifier n [] :: q ∧ Q q) := by
  obtain ⟨u, rfl⟩ := hs
  refine (Eats.str.seqL ((blank_stops hw.1 (head_stops (ident_starts hn _))).seqL ((ident_eats hn (nameEnd_blank hw' (nameEnd_cons (by decide)))).seq
    ((blank_stops hw' (stops_of_head ⟨_, _, rfl, by decide⟩)).seqL h)))).mono ?_
  rintro _ ⟨_, q, rfl, rfl, hq⟩
  exact ⟨q, rfl, hq⟩

/-- A statement with members. -/
theorem membered_any {flt : Str → Option F64} {n w w' s rest : Str} {rl : IdlRule} {kw : Str} {ms : List MemberBuilder} {b : Builder}
    (hk : (rl, kw) ∈ keywords) (hkind : IdlGrammar.kind rl = .normal) (hbody : IdlGrammar.body rl = named kw .shapeMembers) (hrl : rl ∈ statementRules)
    (hn : SmithyIdent n) (hw : Gap w) (hw' : Blank w') (h : MembersText flt ms s)
    (hb : ∀ t ps, IdlParser.memberedOf flt (.mk rl t ps) = .ok (n, ms) → IdlParser.builderOf flt (.mk rl t ps) = .ok b) :
    Eats (r .shapeBody) (kw ++ w ++ n ++ w' ++ s ++ rest) rest (StatementPair flt b) := by
  have e : kw ++ w ++ n ++ w' ++ s ++ rest = kw ++ (w ++ (n ++ (w' ++ (s ++ rest)))) := by simp
  rw [e]
  have hs : ∃ u, s = '{' :: u := by obtain ⟨_, _, -, -, -, -, rfl⟩ := h; exact ⟨_, rfl⟩
  refine keyword_any hk ((Eats.normal hkind (by rw [hbody]; exact named_any hn hw hw' hs (members_any h rest))).mono ?_)
  rintro _ ⟨t, _, rfl, _, rfl, p, rfl, h1, h2⟩
  exact ⟨_, rfl, hrl, hb _ _ (memberedOf_eq h1 h2)⟩

/-- A statement with an object. -/
theorem objected_any {flt : Str → Option F64} {n w w' s rest : Str} {rl : IdlRule} {kw : Str} {o : AMap Str Value} {b : Builder}
    (hk : (rl, kw) ∈ keywords) (hkind : IdlGrammar.kind rl = .normal) (hbody : IdlGrammar.body rl = named kw .nodeObject) (hrl : rl ∈ statementRules)
    (hn : SmithyIdent n) (hw : Gap w) (hw' : Blank w') (h : ValueText flt (.object o) s)
    (hb : AMap.Wf o → ∀ t ps, IdlParser.idAndObject flt none none ps = .ok (n, o) → IdlParser.builderOf flt (.mk rl t ps) = .ok b) :
    Eats (r .shapeBody) (kw ++ w ++ n ++ w' ++ s ++ rest) rest (StatementPair flt b) := by
  have e : kw ++ w ++ n ++ w' ++ s ++ rest = kw ++ (w ++ (n ++ (w' ++ (s ++ rest)))) := by simp
  rw [e]
  cases h with
  | keyword h => cases h
  | @object w1 es hw1 hok hes hp =>
    refine keyword_any hk ((Eats.normal hkind (by rw [hbody]; exact named_any hn hw hw' ⟨_, rfl⟩ (object_any hw1 hok (fun e he => valueText_node (hes e he)) hp rest))).mono ?_)
    rintro _ ⟨t, _, rfl, _, rfl, t', ps', rfl, h⟩
    refine ⟨_, rfl, hrl, hb (AMap.wf_ofList _) _ _ ?_⟩
    change (IdlParser.objectOf flt [] ps' >>= fun o => IdlParser.idAndObject flt (some n) (some o) []) = _
    rw [h]
    rfl

end Verif
