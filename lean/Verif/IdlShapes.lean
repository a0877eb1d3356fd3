/-
The statements of the Smithy IDL that define shapes.
-/
import Verif.IdlTraits

namespace Verif
open Peg Spec IdlGrammar

/-! ### The builders that the text stands for -/

/-- A bare name. -/
def shortRef (id : ShapeID) : ShapeName := .local' id.name

/-- The builder of a member of a structure or union. -/
def memberRef (ns : Str) (x : MemberShape) : MemberBuilder := ⟨x.id, x.traits.map (traitBuilder ns), shortRef x.target⟩

/-- The builder of a body. -/
def bodyRef (ns : Str) : ShapeKind → BuilderBody
  | .simple s => .simple s
  | .list x => .list ⟨memberMember, [], .qualified x.target⟩
  | .set x => .set ⟨memberMember, [], .qualified x.target⟩
  | .map k v => .map ⟨memberKey, [], shortRef k.target⟩ ⟨memberValue, [], shortRef v.target⟩
  | .struct ms => .struct (ms.map fun e => memberRef ns e.2)
  | .union ms => .union (ms.map fun e => memberRef ns e.2)
  | .service x => .service x.version (x.operations.map shortRef) (x.resources.map shortRef) []
  | .operation x => .operation (x.input.map shortRef) (x.output.map shortRef) (x.errors.map shortRef)
  | .resource x => .resource (x.identifiers.map fun e => (e.1, shortRef e.2)) (x.create.map shortRef) (x.put.map shortRef) (x.read.map shortRef)
      (x.update.map shortRef) (x.delete.map shortRef) (x.list.map shortRef) (x.operations.map shortRef)
      (x.collectionOperations.map shortRef) (x.resources.map shortRef)
  | .unresolved => .reference

/-- The builder of a shape. -/
def shapeRef (ns : Str) (s : TopLevelShape) : Builder := ⟨.local' s.id.name, s.traits.map (traitBuilder ns), bodyRef ns s.body⟩

/-- The rules of statements that define a shape. -/
def statementRules : List IdlRule :=
  [.simpleShapeStatement, .listStatement, .setStatement, .mapStatement, .structureStatement, .unionStatement, .serviceStatement,
   .operationStatement, .resourceStatement]

/-- The pair of a statement that is read as the builder. -/
def StatementPair (flt : Str → Option F64) (b : Builder) (ps : List (Pair IdlRule)) : Prop :=
  ∃ p, ps = [p] ∧ p.asRule ∈ statementRules ∧ IdlParser.builderOf flt p = .ok b

/-! ### Simple shapes -/

theorem typeName_eats (s : Simple) (rest : Str) : Eats (r .simpleTypeName) (s.display ++ rest) rest
    (fun ps => ∃ rl t, ps = [.mk rl t []] ∧ IdlParser.simpleOf rl = some s ∧ rl ≠ .identifier) := by
  refine .silent rfl ?_
  have fin : ∀ (rl : IdlRule) (t : Str), kind rl = .normal → body rl = .str t → IdlParser.simpleOf rl = some s → rl ≠ .identifier →
      Eats (r rl) (t ++ rest) rest (fun ps => ∃ rl t, ps = [.mk rl t []] ∧ IdlParser.simpleOf rl = some s ∧ rl ≠ .identifier) := by
    intro rl t hk hb h1 h2
    refine (Eats.normal hk (by rw [hb]; exact Eats.str)).mono ?_
    rintro _ ⟨t, _, rfl, rfl⟩
    exact ⟨rl, t, rfl, h1, h2⟩
  cases s
  case blob => exact .choiceL (fin .typeBlob _ rfl rfl rfl (by decide))
  all_goals refine .choiceR (failsNormal rfl (.strFail rfl)) ?_
  case boolean => exact .choiceL (fin .typeBoolean _ rfl rfl rfl (by decide))
  all_goals refine .choiceR (failsNormal rfl (.strFail rfl)) ?_
  case document => exact .choiceL (fin .typeDocument _ rfl rfl rfl (by decide))
  all_goals refine .choiceR (failsNormal rfl (.strFail rfl)) ?_
  case string => exact .choiceL (fin .typeString _ rfl rfl rfl (by decide))
  all_goals refine .choiceR (failsNormal rfl (.strFail rfl)) ?_
  case byte => exact .choiceL (fin .typeByte _ rfl rfl rfl (by decide))
  all_goals refine .choiceR (failsNormal rfl (.strFail rfl)) ?_
  case short => exact .choiceL (fin .typeShort _ rfl rfl rfl (by decide))
  all_goals refine .choiceR (failsNormal rfl (.strFail rfl)) ?_
  case integer => exact .choiceL (fin .typeInteger _ rfl rfl rfl (by decide))
  all_goals refine .choiceR (failsNormal rfl (.strFail rfl)) ?_
  case long => exact .choiceL (fin .typeLong _ rfl rfl rfl (by decide))
  all_goals refine .choiceR (failsNormal rfl (.strFail rfl)) ?_
  case float => exact .choiceL (fin .typeFloat _ rfl rfl rfl (by decide))
  all_goals refine .choiceR (failsNormal rfl (.strFail rfl)) ?_
  case double => exact .choiceL (fin .typeDouble _ rfl rfl rfl (by decide))
  all_goals refine .choiceR (failsNormal rfl (.strFail rfl)) ?_
  case bigInteger => exact .choiceL (fin .typeBigInteger _ rfl rfl rfl (by decide))
  all_goals refine .choiceR (failsNormal rfl (.strFail rfl)) ?_
  case bigDecimal => exact .choiceL (fin .typeBigDecimal _ rfl rfl rfl (by decide))
  all_goals refine .choiceR (failsNormal rfl (.strFail rfl)) ?_
  case timestamp => exact fin .typeTimestamp _ rfl rfl rfl (by decide)

theorem white_space : White [' '] := by intro c hc; simp only [List.mem_singleton] at hc; subst hc; decide

theorem simple_eats {flt : Str → Option F64} (s : Simple) {n : Str} (hn : SmithyIdent n) (rest : Str) :
    Eats (r .shapeBody) (s.display ++ ' ' :: (n ++ '\n' :: rest)) ('\n' :: rest) (StatementPair flt ⟨.local' n, [], .simple s⟩) := by
  refine .silent rfl (.choiceL ((Eats.normal (r := .simpleShapeStatement) rfl
    ((typeName_eats s _).seq ((ws_eats white_space (solid_ident hn _)).seqL (ident_eats hn (nameEnd_cons (by decide)))))).mono ?_))
  rintro _ ⟨t, _, rfl, _, _, rfl, ⟨rl, t', rfl, h1, h2⟩, rfl⟩
  refine ⟨_, rfl, by simp [statementRules, Pair.asRule], ?_⟩
  have h3 : Builder.named n (.simple s) = .ok ⟨.local' n, [], .simple s⟩ := by
    unfold Builder.named; rw [shapeName_ident hn]; rfl
  simp only [IdlParser.builderOf, Pair.asRule, Pair.intoInner, IdlParser.simpleLoop, List.cons_append, List.nil_append, if_neg h2, h1, if_true,
    Pair.asStr, h3]

/-! ### Statements with members -/

/-- A keyword, a name and a block. -/
theorem named_eats {kw n u rest : Str} {b : IdlRule} {Q : List (Pair IdlRule) → Prop} (hn : SmithyIdent n)
    (h : Eats (r b) ('{' :: u) rest Q) :
    Eats (named kw b) (kw ++ ' ' :: (n ++ ' ' :: '{' :: u)) rest (fun ps => ∃ q, ps = .mk .identifier n [] :: q ∧ Q q) := by
  refine (Eats.str.seqL ((ws_eats white_space (solid_ident hn _)).seqL ((ident_eats hn (nameEnd_cons (by decide))).seq
    ((ws_eats white_space (solid_cons (by decide))).seqL h)))).mono ?_
  rintro _ ⟨_, q, rfl, rfl, hq⟩
  exact ⟨q, rfl, hq⟩

/-- A member to be written: name, target and traits. -/
structure MemberItem where
  name : Str
  target : Str
  traits : Traits
  ref : ShapeName

theorem members_eats {f : Fmt} {flt : Str → Option F64} {m : Model} {ns : Str} {ms : List MemberItem} {rest : Str}
    (h : ∀ x ∈ ms, SmithyIdent x.name ∧ IdText x.target ∧ ShapeName.fromStr x.target = .ok x.ref ∧ ∀ e ∈ x.traits, WritableTrait f flt m ns e.1 e.2) :
    Eats (r .shapeMembers) ('{' :: '\n' :: (ms.flatMap (fun x => %s"    " ++ (memberText f ns %s"    " x.name x.target x.traits ++ ['\n'])) ++ '}' :: rest)) rest
      (fun ps => ∃ p, ps = [p] ∧ p.asRule = .shapeMembers ∧
        IdlParser.membersOf flt p = .ok (ms.map fun x => ⟨x.name, x.traits.map (traitBuilder ns), x.ref⟩)) := by
  have hw : White %s"    " := by intro c hc; simp only [List.mem_cons, List.not_mem_nil, or_false, or_self] at hc; subst hc; decide
  have hb := lines_eats (x := r .shapeMemberKvp) (pre := %s"    ") (as := ms) (rest := '}' :: rest)
    (d := fun x => memberText f ns %s"    " x.name x.target x.traits)
    (Q := fun x p => p.asRule = .shapeMemberKvp ∧
      IdlParser.memberLoop flt [] [] none none p.intoInner = .ok ⟨x.name, x.traits.map (traitBuilder ns), x.ref⟩) hw
    (fun x hx u => member_eats hw (h x hx).1 (h x hx).2.1 (h x hx).2.2.1 (h x hx).2.2.2)
    (fun x hx u => memberText_solid (h x hx).1 u) (solid_cons (by decide)) (fails 24 (by decide))
  refine (Eats.normal (r := .shapeMembers) rfl ((Eats.str (t := ['{'])).seqL (hb.thenR (Eats.str (t := ['}']))))).mono ?_
  rintro _ ⟨t, ps, rfl, hp⟩
  exact ⟨_, rfl, rfl, each_forall (List.forall₂_map_left_iff.mpr hp)⟩

theorem memberedOf_eq {flt : Str → Option F64} {rl : IdlRule} {t n : Str} {p : Pair IdlRule} {ms : List MemberBuilder}
    (hp : p.asRule = .shapeMembers) (h : IdlParser.membersOf flt p = .ok ms) :
    IdlParser.memberedOf flt (.mk rl t (.mk .identifier n [] :: [p])) = .ok (n, ms) := by
  obtain ⟨rl, t', ps'⟩ := p
  cases hp
  unfold IdlParser.memberedOf
  simp only [Pair.intoInner, SelParser.next]
  change (IdlParser.membersOf flt (.mk .shapeMembers t' ps') >>= fun x => pure (n, x)) = _
  rw [h]
  rfl

theorem builder_named {n : Str} (hn : SmithyIdent n) (b : BuilderBody) : Builder.named n b = .ok ⟨.local' n, [], b⟩ := by
  unfold Builder.named; rw [shapeName_ident hn]; rfl

/-- The text of the fields. -/
theorem line_eq (f : Fmt) (ns key text : Str) : IdlWriter.line key text = %s"    " ++ (memberText f ns %s"    " key text [] ++ ['\n']) := by
  simp [IdlWriter.line, memberText, traitLines, IdlWriter.nl]

theorem traits_lines (f : Fmt) (ns pre : Str) (ts : Traits) (x : Str) : IdlWriter.traits f ns pre ts ++ (pre ++ x) = pre ++ (traitLines f ns pre ts ++ x) := by
  induction ts with
  | nil => rfl
  | cons e ts ih =>
    simp only [IdlWriter.traits, List.flatMap_cons, trait_eq, traitLines] at ih ⊢
    simp only [List.append_assoc, ih]
    simp

theorem member_eq (f : Fmt) (ns pre : Str) (x : MemberShape) :
    IdlWriter.member f ns pre x = pre ++ (memberText f ns pre x.id x.target.name x.traits ++ ['\n']) := by
  unfold IdlWriter.member
  simp only [List.append_assoc]
  rw [traits_lines]
  simp [memberText]

/-- The statements other than those of simple shapes, and their keywords. -/
def keywords : List (IdlRule × Str) :=
  [(.listStatement, %s"list"), (.setStatement, %s"set"), (.mapStatement, %s"map"), (.structureStatement, %s"structure"),
   (.unionStatement, %s"union"), (.serviceStatement, %s"service"), (.operationStatement, %s"operation"),
   (.resourceStatement, %s"resource")]

theorem keyword_eats {rl : IdlRule} {kw u rest : Str} {Q : List (Pair IdlRule) → Prop} (hk : (rl, kw) ∈ keywords)
    (h : Eats (r rl) (kw ++ ' ' :: u) rest Q) : Eats (r .shapeBody) (kw ++ ' ' :: u) rest Q := by
  have sf : ∀ {rl t} {e : Expr IdlRule} {s : Str}, kind rl = .normal → body rl = (.str t ~> e) → stripPrefix t s = none →
      Parses idlGrammar false (r rl) s none := by
    intro rl t e s h1 h2 h3
    exact failsNormal h1 (by rw [h2]; exact .seqFail1 (.strFail h3))
  simp only [keywords, List.mem_cons, Prod.mk.injEq, List.not_mem_nil, or_false] at hk
  refine .silent rfl (.choiceR ?_ ?_)
  · rcases hk with ⟨rfl, rfl⟩ | ⟨rfl, rfl⟩ | ⟨rfl, rfl⟩ | ⟨rfl, rfl⟩ | ⟨rfl, rfl⟩ | ⟨rfl, rfl⟩ | ⟨rfl, rfl⟩ | ⟨rfl, rfl⟩ <;>
      exact run_sound (n := 30) rfl
  · rcases hk with ⟨rfl, rfl⟩ | ⟨rfl, rfl⟩ | ⟨rfl, rfl⟩ | ⟨rfl, rfl⟩ | ⟨rfl, rfl⟩ | ⟨rfl, rfl⟩ | ⟨rfl, rfl⟩ | ⟨rfl, rfl⟩
    · exact .choiceL h
    all_goals refine .choiceR (sf rfl rfl rfl) ?_
    · exact .choiceL h
    all_goals refine .choiceR (sf rfl rfl rfl) ?_
    · exact .choiceL h
    all_goals refine .choiceR (sf rfl rfl rfl) ?_
    · exact .choiceL h
    all_goals refine .choiceR (sf rfl rfl rfl) ?_
    · exact .choiceL h
    all_goals refine .choiceR (sf rfl rfl rfl) ?_
    · exact .choiceL h
    all_goals refine .choiceR (sf rfl rfl rfl) ?_
    · exact .choiceL h
    all_goals refine .choiceR (sf rfl rfl rfl) ?_
    · exact h

/-- A statement with a block of members. -/
theorem membered_eats {f : Fmt} {flt : Str → Option F64} {m : Model} {ns n : Str} {rl : IdlRule} {kw : Str} {ms : List MemberItem} {rest : Str}
    {b : Builder} (hk : (rl, kw) ∈ keywords) (hkind : kind rl = .normal) (hbody : body rl = named kw .shapeMembers) (hrl : rl ∈ statementRules)
    (hn : SmithyIdent n)
    (h : ∀ x ∈ ms, SmithyIdent x.name ∧ IdText x.target ∧ ShapeName.fromStr x.target = .ok x.ref ∧ ∀ e ∈ x.traits, WritableTrait f flt m ns e.1 e.2)
    (hb : ∀ t ps, IdlParser.memberedOf flt (.mk rl t ps) = .ok (n, ms.map fun x => ⟨x.name, x.traits.map (traitBuilder ns), x.ref⟩) →
      IdlParser.builderOf flt (.mk rl t ps) = .ok b) :
    Eats (r .shapeBody) (kw ++ ' ' :: (n ++ ' ' :: '{' :: '\n' :: (ms.flatMap (fun x => %s"    " ++ (memberText f ns %s"    " x.name x.target x.traits ++ ['\n'])) ++ '}' :: rest)))
      rest (StatementPair flt b) := by
  refine keyword_eats hk ((Eats.normal hkind (by rw [hbody]; exact named_eats hn (members_eats h))).mono ?_)
  rintro _ ⟨t, _, rfl, _, rfl, p, rfl, h1, h2⟩
  exact ⟨_, rfl, hrl, hb _ _ (memberedOf_eq h1 h2)⟩

theorem list_eats {f : Fmt} {flt : Str → Option F64} {ns n : Str} {x : MemberShape} (hn : SmithyIdent n) (hx : SmithyId x.target) (ts : Traits) (u : Str) :
    Eats (r .shapeBody) (IdlWriter.statement f ns ⟨⟨ns, n, none⟩, ts, .list x⟩ ++ u) ('\n' :: u) (StatementPair flt ⟨.local' n, [], bodyRef ns (.list x)⟩) := by
  have h := membered_eats (f := f) (flt := flt) (m := ⟨.v10, [], []⟩) (ns := ns) (n := n) (rl := .listStatement) (kw := %s"list")
    (ms := [⟨%s"member", x.target.display, [], .qualified x.target⟩]) (rest := '\n' :: u) (b := ⟨.local' n, [], bodyRef ns (.list x)⟩)
    (by decide) rfl rfl (by decide) hn
    (by
      intro y hy
      simp only [List.mem_singleton] at hy
      subst hy
      exact ⟨.plain (by decide) (by decide), smithyId_text hx, shapeName_id hx, by simp⟩)
    (by
      intro t ps hm
      change IdlParser.listOf flt .list (.mk .listStatement t ps) = _
      unfold IdlParser.listOf
      rw [hm]
      exact builder_named hn _)
  simpa [IdlWriter.statement, IdlWriter.opening, IdlWriter.line, IdlWriter.closing, IdlWriter.nl, memberText, traitLines] using h

theorem set_eats {f : Fmt} {flt : Str → Option F64} {ns n : Str} {x : MemberShape} (hn : SmithyIdent n) (hx : SmithyId x.target) (ts : Traits) (u : Str) :
    Eats (r .shapeBody) (IdlWriter.statement f ns ⟨⟨ns, n, none⟩, ts, .set x⟩ ++ u) ('\n' :: u) (StatementPair flt ⟨.local' n, [], bodyRef ns (.set x)⟩) := by
  have h := membered_eats (f := f) (flt := flt) (m := ⟨.v10, [], []⟩) (ns := ns) (n := n) (rl := .setStatement) (kw := %s"set")
    (ms := [⟨%s"member", x.target.display, [], .qualified x.target⟩]) (rest := '\n' :: u) (b := ⟨.local' n, [], bodyRef ns (.set x)⟩)
    (by decide) rfl rfl (by decide) hn
    (by
      intro y hy
      simp only [List.mem_singleton] at hy
      subst hy
      exact ⟨.plain (by decide) (by decide), smithyId_text hx, shapeName_id hx, by simp⟩)
    (by
      intro t ps hm
      change IdlParser.listOf flt .set (.mk .setStatement t ps) = _
      unfold IdlParser.listOf
      rw [hm]
      exact builder_named hn _)
  simpa [IdlWriter.statement, IdlWriter.opening, IdlWriter.line, IdlWriter.closing, IdlWriter.nl, memberText, traitLines] using h

theorem map_eats {f : Fmt} {flt : Str → Option F64} {ns n : Str} {k v : MemberShape} (hn : SmithyIdent n) (hk : SmithyIdent k.target.name)
    (hv : SmithyIdent v.target.name) (ts : Traits) (u : Str) :
    Eats (r .shapeBody) (IdlWriter.statement f ns ⟨⟨ns, n, none⟩, ts, .map k v⟩ ++ u) ('\n' :: u) (StatementPair flt ⟨.local' n, [], bodyRef ns (.map k v)⟩) := by
  have h := membered_eats (f := f) (flt := flt) (m := ⟨.v10, [], []⟩) (ns := ns) (n := n) (rl := .mapStatement) (kw := %s"map")
    (ms := [⟨%s"key", k.target.name, [], shortRef k.target⟩, ⟨%s"value", v.target.name, [], shortRef v.target⟩]) (rest := '\n' :: u)
    (b := ⟨.local' n, [], bodyRef ns (.map k v)⟩)
    (by decide) rfl rfl (by decide) hn
    (by
      intro y hy
      simp only [List.mem_cons, List.not_mem_nil, or_false] at hy
      rcases hy with rfl | rfl
      · exact ⟨.plain (by decide) (by decide), .name hk, shapeName_ident hk, by simp⟩
      · exact ⟨.plain (by decide) (by decide), .name hv, shapeName_ident hv, by simp⟩)
    (by
      intro t ps hm
      have e1 : MemberBuilder.new memberKey k.target.name = .ok ⟨memberKey, [], shortRef k.target⟩ := by
        unfold MemberBuilder.new
        rw [shapeName_ident hk]
        rfl
      have e2 : MemberBuilder.new memberValue v.target.name = .ok ⟨memberValue, [], shortRef v.target⟩ := by
        unfold MemberBuilder.new
        rw [shapeName_ident hv]
        rfl
      change IdlParser.mapOf flt (.mk .mapStatement t ps) = _
      unfold IdlParser.mapOf
      rw [hm]
      change (unwrap (ShapeName.fromStr n) >>= fun n => MemberBuilder.new memberKey k.target.name >>= fun k => MemberBuilder.new memberValue v.target.name >>= fun v => pure _) = _
      rw [e1, e2, shapeName_ident hn]
      rfl)
  simpa [IdlWriter.statement, IdlWriter.opening, IdlWriter.line, IdlWriter.closing, IdlWriter.nl, memberText, traitLines] using h

/-- The members of structures and unions, to be written. -/
def memberItem (x : MemberShape) : MemberItem := ⟨x.id, x.target.name, x.traits, shortRef x.target⟩

theorem memberItem_ok {f : Fmt} {flt : Str → Option F64} {m : Model} {ns : Str} {ms : AMap Str MemberShape}
    (h : ∀ e ∈ ms, WritableMember f flt m ns e.2) : ∀ x ∈ ms.map (fun e => memberItem e.2),
      SmithyIdent x.name ∧ IdText x.target ∧ ShapeName.fromStr x.target = .ok x.ref ∧ ∀ e ∈ x.traits, WritableTrait f flt m ns e.1 e.2 := by
  intro x hx
  obtain ⟨e, he, rfl⟩ := List.mem_map.mp hx
  have := h e he
  exact ⟨this.name, .name this.target.1, shapeName_ident this.target.1, this.traits⟩

theorem members_text (f : Fmt) (ns : Str) (ms : AMap Str MemberShape) : IdlWriter.members f ns %s"    " ms =
    (ms.map fun e => memberItem e.2).flatMap (fun x => %s"    " ++ (memberText f ns %s"    " x.name x.target x.traits ++ ['\n'])) := by
  simp only [IdlWriter.members, AMap.values, List.flatMap_map, memberItem, member_eq]

theorem struct_eats {f : Fmt} {flt : Str → Option F64} {m : Model} {ns n : Str} {ms : AMap Str MemberShape} (hn : SmithyIdent n)
    (hm : ∀ e ∈ ms, WritableMember f flt m ns e.2) (ts : Traits) (u : Str) :
    Eats (r .shapeBody) (IdlWriter.statement f ns ⟨⟨ns, n, none⟩, ts, .struct ms⟩ ++ u) ('\n' :: u)
      (StatementPair flt ⟨.local' n, [], bodyRef ns (.struct ms)⟩) := by
  have h := membered_eats (n := n) (rl := .structureStatement) (kw := %s"structure") (rest := '\n' :: u)
    (b := ⟨.local' n, [], bodyRef ns (.struct ms)⟩) (by decide) rfl rfl (by decide) hn (memberItem_ok hm)
    (by
      intro t ps hm
      change IdlParser.structureOf flt .struct (.mk .structureStatement t ps) = _
      unfold IdlParser.structureOf
      rw [hm]
      refine (builder_named hn _).trans ?_
      simp [bodyRef, memberRef, memberItem])
  rw [← members_text] at h
  simpa [IdlWriter.statement, IdlWriter.opening, IdlWriter.closing, IdlWriter.nl] using h

theorem union_eats {f : Fmt} {flt : Str → Option F64} {m : Model} {ns n : Str} {ms : AMap Str MemberShape} (hn : SmithyIdent n)
    (hm : ∀ e ∈ ms, WritableMember f flt m ns e.2) (ts : Traits) (u : Str) :
    Eats (r .shapeBody) (IdlWriter.statement f ns ⟨⟨ns, n, none⟩, ts, .union ms⟩ ++ u) ('\n' :: u)
      (StatementPair flt ⟨.local' n, [], bodyRef ns (.union ms)⟩) := by
  have h := membered_eats (n := n) (rl := .unionStatement) (kw := %s"union") (rest := '\n' :: u)
    (b := ⟨.local' n, [], bodyRef ns (.union ms)⟩) (by decide) rfl rfl (by decide) hn (memberItem_ok hm)
    (by
      intro t ps hm
      change IdlParser.structureOf flt .union (.mk .unionStatement t ps) = _
      unfold IdlParser.structureOf
      rw [hm]
      refine (builder_named hn _).trans ?_
      simp [bodyRef, memberRef, memberItem])
  rw [← members_text] at h
  simpa [IdlWriter.statement, IdlWriter.opening, IdlWriter.closing, IdlWriter.nl] using h

/-! ### Statements with an object -/

/-- A field to be written: the key, the text of the value and the value. -/
abbrev Field := Str × Str × Value

/-- The lines of the fields. -/
def fieldLines (fs : List Field) : Str := fs.flatMap fun a => IdlWriter.line a.1 a.2.1

theorem fields_eats {flt : Str → Option F64} {fs : List Field} {rest : Str} (hd : (fs.map (·.1)).Nodup)
    (h : ∀ a ∈ fs, SmithyIdent a.1 ∧ NodeText flt a.2.1 a.2.2) :
    Eats (r .nodeObject) ('{' :: '\n' :: (fieldLines fs ++ '}' :: rest)) rest
      (fun ps => ∃ t ps', ps = [.mk .nodeObject t ps'] ∧ IdlParser.objectOf flt [] ps' = .ok (fs.map fun a => (a.1, a.2.2))) := by
  have hw : White %s"\n    " := by
    intro c hc; simp only [List.mem_cons, List.not_mem_nil, or_false] at hc; rcases hc with rfl | rfl | rfl | rfl | rfl <;> decide
  have hnl : White ['\n'] := by intro c hc; simp only [List.mem_singleton] at hc; subst hc; decide
  have ewf : AMap.ofList (fs.map fun a => (a.1, a.2.2)) = fs.map fun a => (a.1, a.2.2) := by
    apply AMap.ofList_of_wf
    unfold AMap.Wf AMap.keys
    simpa [Function.comp_def] using hd
  have hb := fun (w trail : Str) (hw' : White w) (ht : White trail) => object_eats (flt := flt) (as := fs) (key := fun a => a.1) (d := fun a => a.2.1)
    (val := fun a => a.2.2) (rest := rest) hw' hw (by simp) ht (fun a ha => (h a ha).1) (fun a ha => (h a ha).2)
  simp only [ewf] at hb
  cases fs with
  | nil =>
    have := hb ['\n'] [] hnl white_nil
    simpa [fieldLines, joinWith] using this
  | cons a as =>
    have := hb %s"\n    " ['\n'] hw hnl
    have e : fieldLines (a :: as) ++ '}' :: rest = (a :: as).flatMap (fun a => %s"    " ++ ((a.1 ++ (':' :: ' ' :: a.2.1)) ++ ['\n'])) ++ '}' :: rest := by
      simp [fieldLines, IdlWriter.line, IdlWriter.nl]
    rw [e, lines_join _ _ _ (by simp)]
    simpa using this

theorem fielded_eats {flt : Str → Option F64} {n : Str} {rl : IdlRule} {kw : Str} {fs : List Field} {rest : Str} {b : Builder}
    (hk : (rl, kw) ∈ keywords) (hkind : kind rl = .normal) (hbody : body rl = named kw .nodeObject) (hrl : rl ∈ statementRules)
    (hn : SmithyIdent n) (hd : (fs.map (·.1)).Nodup) (h : ∀ a ∈ fs, SmithyIdent a.1 ∧ NodeText flt a.2.1 a.2.2)
    (hb : ∀ t ps, IdlParser.idAndObject flt none none ps = .ok (n, fs.map fun a => (a.1, a.2.2)) → IdlParser.builderOf flt (.mk rl t ps) = .ok b) :
    Eats (r .shapeBody) (kw ++ ' ' :: (n ++ ' ' :: '{' :: '\n' :: (fieldLines fs ++ '}' :: rest))) rest (StatementPair flt b) := by
  refine keyword_eats hk ((Eats.normal hkind (by rw [hbody]; exact named_eats hn (fields_eats hd h))).mono ?_)
  rintro _ ⟨t, _, rfl, _, rfl, t', ps', rfl, h1⟩
  refine ⟨_, rfl, hrl, hb _ _ ?_⟩
  simp only [IdlParser.idAndObject, Pair.asRule, Pair.asStr, Pair.intoInner, h1]
  rfl

theorem bare_text {flt : Str → Option F64} {m : Model} {ns : Str} {id : ShapeID} (h : BareTarget m ns id) :
    NodeText flt id.name (.string id.name) := name_text h.1.1 h.2.1 h.2.2.1 h.2.2.2

/-- One target, if there is one. -/
def optField (key : Str) (o : Option ShapeID) : List Field := o.toList.map fun id => (key, id.name, .string id.name)

/-- Targets, if there are any. -/
def namesField (key : Str) (ids : List ShapeID) : List Field :=
  if ids.isEmpty then [] else [(key, '[' :: (joinWith %s", " (ids.map (·.name)) ++ [']']), .array (ids.map fun id => .string id.name))]

/-- The identifiers, if there are any. -/
def identifiersField (ids : AMap Str ShapeID) : List Field :=
  if ids.isEmpty then []
  else [(%s"identifiers", '{' :: '\n' :: (ids.flatMap (fun e => %s"        " ++ ((e.1 ++ (':' :: ' ' :: e.2.name)) ++ ['\n'])) ++ %s"    }"),
    .object (ids.map fun e => (e.1, .string e.2.name)))]

theorem fieldLines_append (a b : List Field) : fieldLines (a ++ b) = fieldLines a ++ fieldLines b := by simp [fieldLines]

theorem optField_lines (key : Str) (o : Option ShapeID) : fieldLines (optField key o) = IdlWriter.optLine key o := by
  cases o <;> simp [fieldLines, optField, IdlWriter.optLine]

theorem namesField_lines (key : Str) (ids : List ShapeID) : fieldLines (namesField key ids) = IdlWriter.namesLine key ids := by
  unfold namesField IdlWriter.namesLine
  split <;> simp [fieldLines]

theorem identifiersField_lines (ids : AMap Str ShapeID) : fieldLines (identifiersField ids) = IdlWriter.identifiers ids := by
  unfold identifiersField IdlWriter.identifiers
  split <;> simp [fieldLines, IdlWriter.line, IdlWriter.nl]

theorem optField_keys (key : Str) (o : Option ShapeID) : List.Sublist ((optField key o).map (·.1)) [key] := by
  cases o <;> simp [optField]

theorem namesField_keys (key : Str) (ids : List ShapeID) : List.Sublist ((namesField key ids).map (·.1)) [key] := by
  unfold namesField; split <;> simp

theorem identifiersField_keys (ids : AMap Str ShapeID) : List.Sublist ((identifiersField ids).map (·.1)) [%s"identifiers"] := by
  unfold identifiersField; split <;> simp

theorem optField_ok {flt : Str → Option F64} {m : Model} {ns key : Str} {o : Option ShapeID} (hk : SmithyIdent key)
    (h : ∀ id, o = some id → BareTarget m ns id) : ∀ a ∈ optField key o, SmithyIdent a.1 ∧ NodeText flt a.2.1 a.2.2 := by
  intro a ha
  cases o with
  | none => simp [optField] at ha
  | some id =>
    simp only [optField, Option.toList_some, List.map_cons, List.map_nil, List.mem_singleton] at ha
    subst ha
    exact ⟨hk, bare_text (h id rfl)⟩

theorem namesField_ok {flt : Str → Option F64} {m : Model} {ns key : Str} {ids : List ShapeID} (hk : SmithyIdent key)
    (h : ∀ id ∈ ids, BareTarget m ns id) : ∀ a ∈ namesField key ids, SmithyIdent a.1 ∧ NodeText flt a.2.1 a.2.2 := by
  intro a ha
  unfold namesField at ha
  split at ha
  · simp at ha
  · simp only [List.mem_singleton] at ha
    subst ha
    exact ⟨hk, array_text (as := ids) (d := (·.name)) (val := fun id => .string id.name) fun id hid => bare_text (h id hid)⟩

theorem identifiersField_ok {flt : Str → Option F64} {m : Model} {ns : Str} {ids : AMap Str ShapeID} (hw : AMap.Wf ids)
    (h : ∀ e ∈ ids, SmithyIdent e.1 ∧ BareTarget m ns e.2) : ∀ a ∈ identifiersField ids, SmithyIdent a.1 ∧ NodeText flt a.2.1 a.2.2 := by
  intro a ha
  unfold identifiersField at ha
  split at ha
  · simp at ha
  · rename_i hne
    simp only [List.mem_singleton] at ha
    subst ha
    refine ⟨.plain (by decide) (by decide), ?_⟩
    have w8 : White %s"\n        " := by
      intro c hc
      simp only [List.mem_cons, List.not_mem_nil, or_false] at hc
      rcases hc with rfl | rfl | rfl | rfl | rfl | rfl | rfl | rfl | rfl <;> decide
    have w4 : White %s"\n    " := by
      intro c hc; simp only [List.mem_cons, List.not_mem_nil, or_false] at hc; rcases hc with rfl | rfl | rfl | rfl | rfl <;> decide
    have hne' : ids ≠ [] := by intro e; subst e; simp at hne
    rw [lines_join _ _ _ hne']
    have := object_text (flt := flt) (as := ids) (key := fun e => e.1) (d := fun e => e.2.name) (val := fun e => .string e.2.name) w8 w8 (by simp) w4
      (fun e he => (h e he).1) (fun e he => bare_text (h e he).2)
    rw [AMap.ofList_of_wf] at this
    · simpa using this
    · unfold AMap.Wf AMap.keys at hw ⊢
      simpa [Function.comp_def] using hw

/-! ### The values of the fields -/

theorem namesIn_names {ids : List ShapeID} (h : ∀ id ∈ ids, SmithyIdent id.name) :
    IdlParser.namesIn (ids.map fun id => .string id.name) = .ok (ids.map shortRef) := by
  induction ids with
  | nil => rfl
  | cons id ids ih =>
    have h1 : IdlParser.nameOf (.string id.name) = .ok (shortRef id) := by
      change unwrap (ShapeName.fromStr id.name) = _; rw [shapeName_ident (h id (by simp))]; rfl
    change (IdlParser.nameOf (.string id.name) >>= fun n => IdlParser.namesIn (ids.map fun id => .string id.name) >>= fun ns => pure (n :: ns)) = _
    rw [h1, ih fun x hx => h x (by simp [hx])]
    rfl

theorem nameOf_name {id : ShapeID} (h : SmithyIdent id.name) : IdlParser.nameOf (.string id.name) = .ok (shortRef id) := by
  change unwrap (ShapeName.fromStr id.name) = _; rw [shapeName_ident h]; rfl

theorem namesOf_names {place : Str} {ids : List ShapeID} (h : ∀ id ∈ ids, SmithyIdent id.name) :
    IdlParser.namesOf place (.array (ids.map fun id => .string id.name)) = .ok (ids.map shortRef) := namesIn_names h

theorem identifiersIn_names {ids : AMap Str ShapeID} (h : ∀ e ∈ ids, SmithyIdent e.1 ∧ SmithyIdent e.2.name) (acc : AMap Str ShapeName) :
    IdlParser.identifiersIn acc (ids.map fun e => (e.1, .string e.2.name)) =
      .ok ((ids.map fun e => (e.1, shortRef e.2)).foldl (fun m e => AMap.insert m e.1 e.2) acc) := by
  induction ids generalizing acc with
  | nil => rfl
  | cons e ids ih =>
    obtain ⟨h1, h2⟩ := h e (by simp)
    change (unwrap (Identifier.fromStr e.1) >>= fun k => unwrap (ShapeName.fromStr e.2.name) >>= fun n =>
      IdlParser.identifiersIn (AMap.insert acc k n) (ids.map fun e => (e.1, .string e.2.name))) = _
    rw [fromStr_smithy h1, shapeName_ident h2]
    exact ih (fun x hx => h x (by simp [hx])) _

theorem identifiersOf_names {ids : AMap Str ShapeID} (hw : AMap.Wf ids) (h : ∀ e ∈ ids, SmithyIdent e.1 ∧ SmithyIdent e.2.name) :
    IdlParser.identifiersOf [] (.object (ids.map fun e => (e.1, .string e.2.name))) = .ok (ids.map fun e => (e.1, shortRef e.2)) := by
  refine (identifiersIn_names h []).trans ?_
  congr 1
  refine AMap.ofList_of_wf ?_
  unfold AMap.Wf AMap.keys at hw ⊢
  simpa [Function.comp_def] using hw

/-- The keys and values of fields. -/
def fieldValues (fs : List Field) : List (Str × Value) := fs.map fun a => (a.1, a.2.2)

theorem fieldValues_append (a b : List Field) : fieldValues (a ++ b) = fieldValues a ++ fieldValues b := by simp [fieldValues]

/-! ### Services -/

theorem service_eats {f : Fmt} {flt : Str → Option F64} {m : Model} {ns n : Str} {x : Service} (hn : SmithyIdent n)
    (hp : Plain f x.version) (ho : ∀ id ∈ x.operations, BareTarget m ns id) (hr : ∀ id ∈ x.resources, BareTarget m ns id) (ts : Traits) (u : Str) :
    Eats (r .shapeBody) (IdlWriter.statement f ns ⟨⟨ns, n, none⟩, ts, .service x⟩ ++ u) ('\n' :: u)
      (StatementPair flt ⟨.local' n, [], bodyRef ns (.service x)⟩) := by
  have hv : NodeText flt (f.debug x.version) (.string x.version) := by rw [hp.2]; exact string_text hp.1
  have h := fielded_eats (flt := flt) (n := n) (rl := .serviceStatement) (kw := %s"service") (rest := '\n' :: u)
    (fs := [(%s"version", f.debug x.version, .string x.version)] ++ (namesField %s"operations" x.operations ++ namesField %s"resources" x.resources))
    (b := ⟨.local' n, [], bodyRef ns (.service x)⟩) (by decide) rfl rfl (by decide) hn
    (by
      refine List.Nodup.sublist (l₂ := [%s"version"] ++ ([%s"operations"] ++ [%s"resources"])) ?_ (by decide)
      simp only [List.map_append]
      exact (List.Sublist.refl _).append ((namesField_keys _ _).append (namesField_keys _ _)))
    (by
      intro a ha
      simp only [List.mem_append] at ha
      rcases ha with ha | ha | ha
      · simp only [List.mem_singleton] at ha
        subst ha
        exact ⟨.plain (by decide) (by decide), hv⟩
      · exact namesField_ok (.plain (by decide) (by decide)) ho a ha
      · exact namesField_ok (.plain (by decide) (by decide)) hr a ha)
    (by
      intro t ps hm
      change IdlParser.serviceOf flt (.mk .serviceStatement t ps) = _
      unfold IdlParser.serviceOf
      simp only [Pair.intoInner]
      rw [hm]
      have e1 : ∀ o rest, IdlParser.serviceLoop o [] (fieldValues (namesField %s"operations" x.operations) ++ rest) =
          IdlParser.serviceLoop (o ++ x.operations.map shortRef) [] rest := by
        intro o rest
        unfold namesField
        split
        · rename_i hx; rw [List.isEmpty_iff.mp hx]; simp [fieldValues]
        · change (IdlParser.namesOf _ (.array (x.operations.map fun id => .string id.name)) >>= fun y => IdlParser.serviceLoop (o ++ y) [] rest) = _
          rw [namesOf_names fun id hid => (ho id hid).1.1]
          rfl
      have e2 : ∀ o, IdlParser.serviceLoop o [] (fieldValues (namesField %s"resources" x.resources)) = .ok (o, x.resources.map shortRef) := by
        intro o
        unfold namesField
        split
        · rename_i hx; rw [List.isEmpty_iff.mp hx]; simp [fieldValues, IdlParser.serviceLoop]
        · change (IdlParser.namesOf _ (.array (x.resources.map fun id => .string id.name)) >>= fun y => IdlParser.serviceLoop o ([] ++ y) []) = _
          rw [namesOf_names fun id hid => (hr id hid).1.1]
          rfl
      have e3 : IdlParser.serviceLoop [] [] (fieldValues ([(%s"version", f.debug x.version, .string x.version)] ++
          (namesField %s"operations" x.operations ++ namesField %s"resources" x.resources))) = .ok (x.operations.map shortRef, x.resources.map shortRef) := by
        rw [fieldValues_append, fieldValues_append]
        exact (e1 _ _).trans (e2 _)
      change (unwrap (ShapeName.fromStr n) >>= fun n => IdlParser.serviceLoop [] [] (fieldValues _) >>= fun y => pure _) = _
      rw [shapeName_ident hn, e3]
      rfl)
  rw [fieldLines_append, fieldLines_append, namesField_lines, namesField_lines] at h
  simpa [IdlWriter.statement, IdlWriter.opening, IdlWriter.closing, IdlWriter.nl, fieldLines] using h

/-! ### Operations -/

theorem operation_eats {f : Fmt} {flt : Str → Option F64} {m : Model} {ns n : Str} {x : Operation} (hn : SmithyIdent n)
    (hi : ∀ id, x.input = some id → BareTarget m ns id) (ho : ∀ id, x.output = some id → BareTarget m ns id)
    (he : ∀ id ∈ x.errors, BareTarget m ns id) (ts : Traits) (u : Str) :
    Eats (r .shapeBody) (IdlWriter.statement f ns ⟨⟨ns, n, none⟩, ts, .operation x⟩ ++ u) ('\n' :: u)
      (StatementPair flt ⟨.local' n, [], bodyRef ns (.operation x)⟩) := by
  have h := fielded_eats (flt := flt) (n := n) (rl := .operationStatement) (kw := %s"operation") (rest := '\n' :: u)
    (fs := optField %s"input" x.input ++ (optField %s"output" x.output ++ namesField %s"errors" x.errors))
    (b := ⟨.local' n, [], bodyRef ns (.operation x)⟩) (by decide) rfl rfl (by decide) hn
    (by
      refine List.Nodup.sublist (l₂ := [%s"input"] ++ ([%s"output"] ++ [%s"errors"])) ?_ (by decide)
      simp only [List.map_append]
      exact (optField_keys _ _).append ((optField_keys _ _).append (namesField_keys _ _)))
    (by
      intro a ha
      simp only [List.mem_append] at ha
      rcases ha with ha | ha | ha
      · exact optField_ok (.plain (by decide) (by decide)) hi a ha
      · exact optField_ok (.plain (by decide) (by decide)) ho a ha
      · exact namesField_ok (.plain (by decide) (by decide)) he a ha)
    (by
      intro t ps hm
      change IdlParser.operationOf flt (.mk .operationStatement t ps) = _
      unfold IdlParser.operationOf
      simp only [Pair.intoInner]
      rw [hm]
      have e1 : ∀ rest, IdlParser.operationLoop none none [] (fieldValues (optField %s"input" x.input) ++ rest) =
          IdlParser.operationLoop (x.input.map shortRef) none [] rest := by
        intro rest
        cases hx : x.input with
        | none => rfl
        | some id =>
          change (IdlParser.nameOf (.string id.name) >>= fun y => IdlParser.operationLoop (some y) none [] rest) = _
          rw [nameOf_name (hi id hx).1.1]
          rfl
      have e2 : ∀ a rest, IdlParser.operationLoop a none [] (fieldValues (optField %s"output" x.output) ++ rest) =
          IdlParser.operationLoop a (x.output.map shortRef) [] rest := by
        intro a rest
        cases hx : x.output with
        | none => rfl
        | some id =>
          change (IdlParser.nameOf (.string id.name) >>= fun y => IdlParser.operationLoop a (some y) [] rest) = _
          rw [nameOf_name (ho id hx).1.1]
          rfl
      have e3 : ∀ a b, IdlParser.operationLoop a b [] (fieldValues (namesField %s"errors" x.errors)) = .ok (.operation a b (x.errors.map shortRef)) := by
        intro a b
        unfold namesField
        split
        · rename_i hx; rw [List.isEmpty_iff.mp hx]; rfl
        · change (IdlParser.namesOf _ (.array (x.errors.map fun id => .string id.name)) >>= fun y => IdlParser.operationLoop a b ([] ++ y) []) = _
          rw [namesOf_names fun id hid => (he id hid).1.1]
          rfl
      change (unwrap (ShapeName.fromStr n) >>= fun n => IdlParser.operationLoop none none [] (fieldValues _) >>= fun y => pure _) = _
      rw [shapeName_ident hn, fieldValues_append, fieldValues_append, e1, e2, e3]
      rfl)
  rw [fieldLines_append, fieldLines_append, namesField_lines, optField_lines, optField_lines] at h
  simpa [IdlWriter.statement, IdlWriter.opening, IdlWriter.closing, IdlWriter.nl] using h

/-! ### Resources -/

theorem resource_opt {m : Model} {ns : Str} {key : Str} {o : Option ShapeID} {set : ResourceFields → Option ShapeName → ResourceFields}
    (ho : ∀ id, o = some id → BareTarget m ns id)
    (hset : ∀ r v rest, IdlParser.resourceLoop r ((key, v) :: rest) = IdlParser.nameOf v >>= fun y => IdlParser.resourceLoop (set r (some y)) rest)
    {r : ResourceFields} (hr : set r none = r) (rest : List (Str × Value)) :
    IdlParser.resourceLoop r (fieldValues (optField key o) ++ rest) = IdlParser.resourceLoop (set r (o.map shortRef)) rest := by
  cases o with
  | none => simp [optField, fieldValues, hr]
  | some id =>
    change IdlParser.resourceLoop r ((key, .string id.name) :: rest) = _
    rw [hset, nameOf_name (ho id rfl).1.1]
    rfl

theorem resource_names {m : Model} {ns : Str} {key : Str} {ids : List ShapeID} {set : ResourceFields → List ShapeName → ResourceFields}
    (ho : ∀ id ∈ ids, BareTarget m ns id)
    (hset : ∀ r v rest, IdlParser.resourceLoop r ((key, v) :: rest) = IdlParser.namesOf %s"parse_resource_statement" v >>= fun y => IdlParser.resourceLoop (set r y) rest)
    {r : ResourceFields} (hr : set r [] = r) (rest : List (Str × Value)) :
    IdlParser.resourceLoop r (fieldValues (namesField key ids) ++ rest) = IdlParser.resourceLoop (set r (ids.map shortRef)) rest := by
  unfold namesField
  split
  · rename_i hx; rw [List.isEmpty_iff.mp hx]; simp [fieldValues, hr]
  · change IdlParser.resourceLoop r ((key, .array (ids.map fun id => .string id.name)) :: rest) = _
    rw [hset, namesOf_names fun id hid => (ho id hid).1.1]
    rfl

theorem resource_identifiers {m : Model} {ns : Str} {ids : AMap Str ShapeID} (hw : AMap.Wf ids)
    (h : ∀ e ∈ ids, SmithyIdent e.1 ∧ BareTarget m ns e.2) {r : ResourceFields} (hr : r.identifiers = []) (rest : List (Str × Value)) :
    IdlParser.resourceLoop r (fieldValues (identifiersField ids) ++ rest) =
      IdlParser.resourceLoop { r with identifiers := ids.map fun e => (e.1, shortRef e.2) } rest := by
  unfold identifiersField
  split
  · rename_i hx
    rw [List.isEmpty_iff.mp hx]
    obtain ⟨_, _, _, _, _, _, _, _, _, _⟩ := r
    cases hr
    rfl
  · change (IdlParser.identifiersOf r.identifiers (.object (ids.map fun e => (e.1, .string e.2.name))) >>= fun y =>
      IdlParser.resourceLoop { r with identifiers := y } rest) = _
    rw [hr, identifiersOf_names hw fun e he => ⟨(h e he).1, (h e he).2.1.1⟩]
    rfl

theorem resource_eats {f : Fmt} {flt : Str → Option F64} {m : Model} {ns n : Str} {x : Resource} (hn : SmithyIdent n) (hw : AMap.Wf x.identifiers)
    (hx : WritableKind f flt m ns (.resource x)) (ts : Traits) (u : Str) :
    Eats (r .shapeBody) (IdlWriter.statement f ns ⟨⟨ns, n, none⟩, ts, .resource x⟩ ++ u) ('\n' :: u)
      (StatementPair flt ⟨.local' n, [], bodyRef ns (.resource x)⟩) := by
  cases hx with
  | resource h1 h2 h3 h4 h5 h6 h7 h8 h9 h10 =>
  have h := fielded_eats (flt := flt) (n := n) (rl := .resourceStatement) (kw := %s"resource") (rest := '\n' :: u)
    (fs := identifiersField x.identifiers ++ (optField %s"create" x.create ++ (optField %s"put" x.put ++ (optField %s"read" x.read ++
      (optField %s"update" x.update ++ (optField %s"delete" x.delete ++ (optField %s"list" x.list ++ (namesField %s"operations" x.operations ++
      (namesField %s"collectionOperations" x.collectionOperations ++ (namesField %s"resources" x.resources ++ []))))))))))
    (b := ⟨.local' n, [], bodyRef ns (.resource x)⟩) (by decide) rfl rfl (by decide) hn
    (by
      refine List.Nodup.sublist (l₂ := [%s"identifiers"] ++ ([%s"create"] ++ ([%s"put"] ++ ([%s"read"] ++ ([%s"update"] ++ ([%s"delete"] ++
        ([%s"list"] ++ ([%s"operations"] ++ ([%s"collectionOperations"] ++ ([%s"resources"] ++ [])))))))))) ?_ (by decide)
      simp only [List.map_append]
      exact (identifiersField_keys _).append ((optField_keys _ _).append ((optField_keys _ _).append ((optField_keys _ _).append
        ((optField_keys _ _).append ((optField_keys _ _).append ((optField_keys _ _).append ((namesField_keys _ _).append
        ((namesField_keys _ _).append ((namesField_keys _ _).append (List.Sublist.refl _))))))))))
    )
    (by
      intro a ha
      simp only [List.mem_append, List.not_mem_nil, or_false] at ha
      rcases ha with ha | ha | ha | ha | ha | ha | ha | ha | ha | ha
      · exact identifiersField_ok hw h1 a ha
      · exact optField_ok (.plain (by decide) (by decide)) h2 a ha
      · exact optField_ok (.plain (by decide) (by decide)) h3 a ha
      · exact optField_ok (.plain (by decide) (by decide)) h4 a ha
      · exact optField_ok (.plain (by decide) (by decide)) h5 a ha
      · exact optField_ok (.plain (by decide) (by decide)) h6 a ha
      · exact optField_ok (.plain (by decide) (by decide)) h7 a ha
      · exact namesField_ok (.plain (by decide) (by decide)) h8 a ha
      · exact namesField_ok (.plain (by decide) (by decide)) h9 a ha
      · exact namesField_ok (.plain (by decide) (by decide)) h10 a ha)
    (by
      intro t ps hm
      change IdlParser.resourceOf flt (.mk .resourceStatement t ps) = _
      unfold IdlParser.resourceOf
      simp only [Pair.intoInner]
      rw [hm]
      change (unwrap (ShapeName.fromStr n) >>= fun n => IdlParser.resourceLoop _ (fieldValues _) >>= fun y => pure _) = _
      simp only [fieldValues_append]
      rw [shapeName_ident hn, resource_identifiers hw h1 rfl,
        resource_opt (key := %s"create") (set := fun r y => { r with create := y }) h2 (fun _ _ _ => rfl) rfl,
        resource_opt (key := %s"put") (set := fun r y => { r with put := y }) h3 (fun _ _ _ => rfl) rfl,
        resource_opt (key := %s"read") (set := fun r y => { r with read := y }) h4 (fun _ _ _ => rfl) rfl,
        resource_opt (key := %s"update") (set := fun r y => { r with update := y }) h5 (fun _ _ _ => rfl) rfl,
        resource_opt (key := %s"delete") (set := fun r y => { r with delete := y }) h6 (fun _ _ _ => rfl) rfl,
        resource_opt (key := %s"list") (set := fun r y => { r with list := y }) h7 (fun _ _ _ => rfl) rfl,
        resource_names (key := %s"operations") (set := fun r y => { r with operations := r.operations ++ y }) h8 (fun _ _ _ => rfl) rfl,
        resource_names (key := %s"collectionOperations") (set := fun r y => { r with collectionOperations := r.collectionOperations ++ y }) h9
          (fun _ _ _ => rfl) rfl,
        resource_names (key := %s"resources") (set := fun r y => { r with resources := r.resources ++ y }) h10 (fun _ _ _ => rfl) rfl]
      rfl)
  simp only [fieldLines_append, namesField_lines, optField_lines, identifiersField_lines] at h
  simpa [IdlWriter.statement, IdlWriter.opening, IdlWriter.closing, IdlWriter.nl, fieldLines] using h

/-! ### All statements -/

theorem statement_eats {f : Fmt} {flt : Str → Option F64} {m : Model} {ns n : Str} {k : ShapeKind} (hn : SmithyIdent n) (hw : WfKind k)
    (hk : WritableKind f flt m ns k) (ts : Traits) (u : Str) :
    Eats (r .shapeBody) (IdlWriter.statement f ns ⟨⟨ns, n, none⟩, ts, k⟩ ++ u) ('\n' :: u)
      (StatementPair flt ⟨.local' n, [], bodyRef ns k⟩) := by
  cases hk with
  | @simple s => simpa [IdlWriter.statement, IdlWriter.nl, bodyRef] using simple_eats (flt := flt) s hn u
  | list h => exact list_eats hn h ts u
  | set h => exact set_eats hn h ts u
  | map h1 h2 => exact map_eats hn h1.1 h2.1 ts u
  | struct h => exact struct_eats hn h ts u
  | union h => exact union_eats hn h ts u
  | service _ h1 h2 h3 => exact service_eats hn h1 h2 h3 ts u
  | operation h1 h2 h3 => exact operation_eats hn h1 h2 h3 ts u
  | @resource x h1 h2 h3 h4 h5 h6 h7 h8 h9 h10 => exact resource_eats hn hw (.resource h1 h2 h3 h4 h5 h6 h7 h8 h9 h10) ts u

theorem statement_head {f : Fmt} {flt : Str → Option F64} {m : Model} {ns : Str} {id : ShapeID} {k : ShapeKind} (hk : WritableKind f flt m ns k) (ts : Traits) :
    ∃ c x, IdlWriter.statement f ns ⟨id, ts, k⟩ = c :: x ∧ c ∈ identHeads := by
  cases hk with
  | @simple s => cases s <;> exact ⟨_, _, rfl, by decide⟩
  | _ => exact ⟨_, _, rfl, by decide⟩

/-- The text of a shape without the line breaks at the end. -/
def idlShapeText (f : Fmt) (ns : Str) (s : TopLevelShape) : Str := traitLines f ns [] s.traits ++ IdlWriter.statement f ns s

theorem shape_eq (f : Fmt) (ns : Str) (s : TopLevelShape) (h : s.body ≠ .unresolved) : IdlWriter.shape f ns s = idlShapeText f ns s ++ ['\n'] := by
  have : s.body.isUnresolved = false := by cases hb : s.body <;> first | rfl | exact absurd hb h
  unfold IdlWriter.shape idlShapeText
  rw [this]
  have := traits_lines f ns [] s.traits (IdlWriter.statement f ns s)
  simp only [List.nil_append] at this
  simp [this]

theorem idlShapeText_head {f : Fmt} {flt : Str → Option F64} {m : Model} {ns : Str} {s : TopLevelShape} (h : WritableKind f flt m ns s.body) (u : Str) :
    ∃ c x, idlShapeText f ns s ++ u = c :: x ∧ (c = '@' ∨ c ∈ identHeads) := by
  obtain ⟨id, ts, k⟩ := s
  cases ts with
  | nil =>
    obtain ⟨c, x, e, hc⟩ := statement_head (f := f) (id := id) h []
    exact ⟨c, x ++ u, by simp [idlShapeText, traitLines, e], .inr hc⟩
  | cons e ts => exact ⟨'@', _, rfl, .inl rfl⟩

/-- The pair of a shape. -/
def ShapePair (flt : Str → Option F64) (b : Builder) (p : Pair IdlRule) : Prop :=
  p.asRule = .shapeStatement ∧ ∀ mb, IdlParser.statementLoop flt mb [] [] p.intoInner = .ok (mb.insert b)

theorem statementLoop_rule {flt : Str → Option F64} {mb : ModelBuilder} {ts : List TraitBuilder} {p : Pair IdlRule} {b : Builder} (hr : p.asRule ∈ statementRules)
    (hb : IdlParser.builderOf flt p = .ok b) :
    IdlParser.statementLoop flt mb [] ts [p] = .ok (mb.insert { b with traits := b.traits ++ ts }) := by
  obtain ⟨rl, t, ps⟩ := p
  have : IdlParser.statementLoop flt mb [] ts [.mk rl t ps] = (IdlParser.builderOf flt (.mk rl t ps) >>= fun b =>
      IdlParser.statementLoop flt (mb.insert { b with traits := b.traits ++ IdlParser.appliedTraits [] ts }) [] ts []) := by
    simp only [Pair.asRule, statementRules, List.mem_cons, List.not_mem_nil, or_false] at hr
    rcases hr with rfl | rfl | rfl | rfl | rfl | rfl | rfl | rfl | rfl <;> rfl
  rw [this, hb]
  rfl

theorem shape_eats {f : Fmt} {flt : Str → Option F64} {m : Model} {ns : Str} {s : TopLevelShape} {w u : Str} (h : WritableShape f flt m ns s) (hw : WfKind s.body)
    (hww : White w) (hu : Solid' u) :
    Eats (r .shapeStatement) (idlShapeText f ns s ++ (w ++ u)) u (fun ps => ∃ p, ps = [p] ∧ ShapePair flt (shapeRef ns s) p) := by
  obtain ⟨⟨ns', n, mem⟩, ts, k⟩ := s
  obtain ⟨h1, h2, h3, h4, h5, h6⟩ := h
  cases h1
  cases h3
  have hs := statement_eats (flt := flt) h2 hw h6 ts (w ++ u)
  obtain ⟨c, x, e, hc⟩ := statement_head (f := f) (id := ⟨ns', n, none⟩) h6 ts
  have htr : ∀ c ∈ identHeads, c ∉ [' ', '\t', '\n', '\r', ',', '/'] := by decide
  have hta : ∀ c ∈ identHeads, (!mayBeEmpty null (r .aTrait) && (bounded null rank 32 (r .aTrait) && !starts 8 (r .aTrait) c)) = true := by decide
  have ht := traits_eats (f := f) (flt := flt) (ns := ns') (pre := []) (ts := ts) (rest := IdlWriter.statement f ns' ⟨⟨ns', n, none⟩, ts, k⟩ ++ (w ++ u)) white_nil h5
    (by rw [e]; exact solid_cons (htr c hc)) (by rw [e]; exact fails 8 (hta c hc))
  have hd := noDocs (idlShapeText_head (f := f) (s := ⟨⟨ns', n, none⟩, ts, k⟩) h6 (w ++ u))
  have hws : Solid' (idlShapeText f ns' ⟨⟨ns', n, none⟩, ts, k⟩ ++ (w ++ u)) := by
    obtain ⟨c, x, e, hc⟩ := idlShapeText_head (f := f) (s := ⟨⟨ns', n, none⟩, ts, k⟩) h6 (w ++ u)
    rw [e]
    have : ∀ c ∈ '@' :: identHeads, c ∉ [' ', '\t', '\n', '\r', ',', '/'] := by decide
    exact solid_cons (this c (List.mem_cons.mpr hc))
  have e1 : idlShapeText f ns' ⟨⟨ns', n, none⟩, ts, k⟩ ++ (w ++ u) = traitLines f ns' [] ts ++ (IdlWriter.statement f ns' ⟨⟨ns', n, none⟩, ts, k⟩ ++ (w ++ u)) := by
    simp [idlShapeText]
  rw [e1] at hd hws ⊢
  have hwe : Eats (r .ws) ('\n' :: (w ++ u)) u (· = []) := ws_eats (w := '\n' :: w) (white_nl hww) hu
  refine (Eats.normal (r := .shapeStatement) rfl (hd.seqL ((ws_none hws).seqL (ht.seq (hs.seqR hwe))))).mono ?_
  rintro _ ⟨t, _, rfl, _, _, rfl, ⟨p, rfl, hp1, hp2⟩, q, rfl, hq1, hq2⟩
  refine ⟨_, rfl, rfl, ?_⟩
  intro mb
  obtain ⟨rl, t', ps'⟩ := p
  cases hp1
  change (IdlParser.traitsOf flt (.mk .traitStatements t' ps') >>= fun ts => IdlParser.statementLoop flt mb [] ts [q]) = _
  rw [hp2]
  exact statementLoop_rule hq1 hq2

end Verif
