/-
C61: documentation comments before a shape.
-/
import Verif.IdlTexts
import Verif.IdlBlank
import Mathlib.Data.List.Nodup

namespace Verif
open Peg Spec
open IdlGrammar (r null rank)

namespace Spec

/-- White space, as in Unicode. -/
def WhiteSpace (c : Char) : Prop :=
  c.toNat ∈ [0x9, 0xA, 0xB, 0xC, 0xD, 0x20, 0x85, 0xA0, 0x1680, 0x2028, 0x2029, 0x202F, 0x205F, 0x3000] ∨ 0x2000 ≤ c.toNat ∧ c.toNat ≤ 0x200A

/-- A line, and the line without the white space at its start. -/
def Trimmed (line text : Str) : Prop := (∃ w, line = w ++ text ∧ ∀ c ∈ w, WhiteSpace c) ∧ ∀ c u, text = c :: u → ¬ WhiteSpace c

/-- Documentation comments, each on its line. -/
def docComments (docs : List Str) : Str := docs.flatMap fun l => %s"///" ++ l ++ %s"\n"

/-- A member with documentation comments, and an absolute target. -/
structure DocMember where
  docs : List Str
  name : Str
  target : ShapeID

/-- The text of the member. -/
def DocMember.text (x : DocMember) : Str := docComments x.docs ++ x.name ++ %s": " ++ x.target.ns ++ %s"#" ++ x.target.name ++ %s"\n"

/-- A simple shape or a structure. -/
inductive DocBody where
  | simple (k : Simple)
  | struct (ms : List DocMember)

/-- A shape with documentation comments. -/
structure DocItem where
  docs : List Str
  kind : DocBody
  name : Str

/-- The text of the body. -/
def DocBody.text (n : Str) : DocBody → Str
  | .simple k => k.display ++ %s" " ++ n ++ %s"\n"
  | .struct ms => %s"structure " ++ n ++ %s" {\n" ++ ms.flatMap DocMember.text ++ %s"}\n"

/-- The text of the shape. -/
def DocItem.text (x : DocItem) : Str := docComments x.docs ++ x.kind.text x.name

/-- Lines that can be in a documentation comment. -/
def DocLines (docs : List Str) : Prop := ∀ l ∈ docs, ∀ c ∈ l, CommentChar c

/-- Shapes that can be written like this: their names and those of their members are identifiers and different. -/
def DocItem.Ok (x : DocItem) : Prop :=
  DocLines x.docs ∧ SmithyIdent x.name ∧ ∀ ms, x.kind = .struct ms →
    (∀ m ∈ ms, DocLines m.docs ∧ SmithyIdent m.name ∧ SmithyId m.target) ∧ (ms.map (·.name)).Nodup

/-- A text with a namespace and shapes, with documentation comments. -/
def docText (ns : Str) (xs : List DocItem) : Str := %s"namespace " ++ ns ++ %s"\n" ++ xs.flatMap DocItem.text

/-- The traits that stand for documentation comments: the lines, separated by line ends. -/
inductive DocTraits : List Str → Traits → Prop
  | none : DocTraits [] []
  | some {docs texts : List Str} : docs ≠ [] → List.Forall₂ Trimmed docs texts →
      DocTraits docs [(⟨preludeNs, %s"documentation", .none⟩, .some (.string (List.intercalate ['\n'] texts)))]

/-- The body that is read. -/
inductive DocBody.Reads : DocBody → ShapeKind → Prop
  | simple {k} : Reads (.simple k) (.simple k)
  | struct {ms members} : (∀ k m, AMap.get members k = some m ↔
      ∃ x ∈ ms, k = x.name ∧ m.id = x.name ∧ m.target = x.target ∧ DocTraits x.docs m.traits) → Reads (.struct ms) (.struct members)

end Spec

theorem isWhite_iff (c : Char) : isWhite c = true ↔ WhiteSpace c := by
  have hsp : c = ' ' ↔ c.toNat = 0x20 := ⟨fun h => by rw [h]; rfl, fun h => Char.ext (UInt32.toNat_inj.mp h)⟩
  simp only [isWhite, WhiteSpace, charRange, Bool.or_eq_true, Bool.and_eq_true, decide_eq_true_eq, beq_iff_eq, hsp, List.mem_cons, List.not_mem_nil, or_false]
  omega

theorem isWhite_false (c : Char) : isWhite c = false ↔ ¬ WhiteSpace c := by rw [← isWhite_iff]; simp

theorem trimmed_trimStart (l : Str) : Trimmed l (trimStart l) := by
  refine ⟨⟨l.takeWhile isWhite, List.takeWhile_append_dropWhile.symm, fun c hc => ?_⟩, ?_⟩
  · exact (isWhite_iff c).mp (List.all_eq_true.mp List.all_takeWhile c hc)
  · intro c u h
    have := List.head?_dropWhile_not isWhite l
    unfold trimStart at h
    rw [h] at this
    exact (isWhite_false c).mp (by simpa using this)

theorem Spec.Trimmed.eq {l a b : Str} (ha : Trimmed l a) (hb : Trimmed l b) : a = b := by
  have key : ∀ {l a : Str}, Trimmed l a → a = trimStart l := by
    rintro _ a ⟨⟨w, rfl, hw⟩, h⟩
    induction w with
    | nil =>
      cases a with
      | nil => rfl
      | cons c u => simp [trimStart, (isWhite_false c).mpr (h c u rfl)]
    | cons c w ih =>
      have h2 := ih fun d hd => hw d (by simp [hd])
      refine h2.trans ?_
      have h1 := (isWhite_iff c).mpr (hw c (by simp))
      simp [trimStart, h1]
  rw [key ha, key hb]

theorem notWs_doc (u : Str) : Eats (r .ws) (%s"///" ++ u) (%s"///" ++ u) (· = []) := by
  refine .silent rfl (.repNil ?_)
  refine .choiceR (fails 8 (by decide)) (.choiceR (fails 8 (by decide)) (.choiceR (.seqFail1 (.notFail (.str (s' := u) ?_))) (fails 8 (by decide))))
  simp [stripPrefix]

theorem docLine_eats {l : Str} (h : ∀ c ∈ l, CommentChar c) (u : Str) :
    Eats (r .documentationComment) (%s"///" ++ (l ++ ('\n' :: u))) u (· = [.mk .documentationText l []]) := by
  refine .silent rfl ((notWs_doc _).seqL ((Eats.str (t := %s"///")).seqL ?_))
  have h1 : Eats (r .documentationText) (l ++ ('\n' :: u)) ('\n' :: u) (· = [.mk .documentationText l []]) := by
    refine (Eats.normalText (r := .documentationText) rfl (rep_digits (fun c hc => commentChar_of (h c hc))
      (by intro c s'' h; injection h with h _; rw [← h]; decide))).mono ?_
    rintro _ ⟨_, rfl, rfl⟩
    rfl
  exact h1.seqR (.silent rfl (.choiceL (Eats.str (t := ['\n']))))

theorem docs_eats {docs : List Str} (h : ∀ l ∈ docs, ∀ c ∈ l, CommentChar c) {u : Str} (hu : ∃ c x, u = c :: x ∧ (c = '@' ∨ c ∈ identHeads)) :
    Eats (.rep (r .documentationComment)) (docComments docs ++ u) u (· = docs.map fun l => .mk .documentationText l []) := by
  induction docs with
  | nil => exact noDocs hu
  | cons l docs ih =>
    have e : docComments (l :: docs) ++ u = %s"///" ++ (l ++ ('\n' :: (docComments docs ++ u))) := by simp [docComments]
    rw [e]
    refine ((docLine_eats (h l (by simp)) _).repCons (ih fun x hx => h x (by simp [hx]))).mono ?_
    rintro _ ⟨_, _, rfl, rfl, rfl⟩
    rfl

theorem statementLoop_docs {flt : Str → Option F64} {mb : ModelBuilder} (docs acc : List Str) (ps : List (Pair IdlRule)) :
    IdlParser.statementLoop flt mb acc [] (docs.map (fun l => .mk .documentationText l []) ++ ps) =
      IdlParser.statementLoop flt mb (acc ++ docs.map trimStart) [] ps := by
  induction docs generalizing acc with
  | nil => simp
  | cons l docs ih =>
    change IdlParser.statementLoop flt mb (acc ++ [trimStart l]) [] (docs.map (fun l => .mk .documentationText l []) ++ ps) = _
    rw [ih]
    simp

theorem statementLoop_documented {flt : Str → Option F64} {mb : ModelBuilder} {docs : List Str} {ts : List TraitBuilder} {p : Pair IdlRule} {b : Builder}
    (hr : p.asRule ∈ statementRules) (hb : IdlParser.builderOf flt p = .ok b) :
    IdlParser.statementLoop flt mb docs ts [p] = .ok (mb.insert { b with traits := b.traits ++ IdlParser.appliedTraits docs ts }) := by
  obtain ⟨rl, t, ps⟩ := p
  have : IdlParser.statementLoop flt mb docs ts [.mk rl t ps] = (IdlParser.builderOf flt (.mk rl t ps) >>= fun b =>
      IdlParser.statementLoop flt (mb.insert { b with traits := b.traits ++ IdlParser.appliedTraits docs ts }) docs ts []) := by
    simp only [Pair.asRule, statementRules, List.mem_cons, List.not_mem_nil, or_false] at hr
    rcases hr with rfl | rfl | rfl | rfl | rfl | rfl | rfl | rfl | rfl <;> rfl
  rw [this, hb]
  rfl

/-- The traits of a documented shape. -/
def docTraits (docs : List Str) : List TraitBuilder := IdlParser.appliedTraits (docs.map trimStart) []

/-- The builder of a documented member. -/
def docMember (x : DocMember) : MemberBuilder := ⟨x.name, docTraits x.docs, .qualified x.target⟩

/-- The body of the builder. -/
def docBody : DocBody → BuilderBody
  | .simple k => .simple k
  | .struct ms => .struct (ms.map docMember)

/-- The builder of a documented shape. -/
def docBuilder (x : DocItem) : Builder := ⟨.local' x.name, docTraits x.docs, docBody x.kind⟩

theorem simple_head (k : Simple) : ∃ c x, k.display = c :: x ∧ c ∈ identHeads := by
  cases k <;> exact ⟨_, _, rfl, by decide⟩

/-- Where whitespace ends. -/
def Stops (u : Str) : Prop := Eats (r .ws) u u (· = [])

theorem body_head (b : DocBody) (n : Str) : ∃ c x, b.text n = c :: x ∧ c ∈ identHeads := by
  cases b with
  | simple k =>
    obtain ⟨c, x, e, hc⟩ := simple_head k
    exact ⟨c, _, by simp only [DocBody.text, e, List.cons_append]; rfl, hc⟩
  | struct ms => exact ⟨'s', _, rfl, by decide⟩

theorem stops_docs (docs : List Str) {u : Str} (h : ∃ c x, u = c :: x ∧ c ∈ identHeads) : Stops (docComments docs ++ u) := by
  cases docs with
  | nil =>
    obtain ⟨c, y, rfl, hc⟩ := h
    have htr : ∀ c ∈ identHeads, c ∉ [' ', '\t', '\n', '\r', ',', '/'] := by decide
    exact ws_none (solid_cons (htr c hc))
  | cons l docs => simpa [docComments, Stops] using notWs_doc _

theorem stops_items (xs : List DocItem) : Stops (xs.flatMap DocItem.text) := by
  cases xs with
  | nil => exact ws_none solid_nil
  | cons x xs =>
    obtain ⟨c, y, e, hc⟩ := body_head x.kind x.name
    rw [List.flatMap_cons, DocItem.text, List.append_assoc]
    exact stops_docs _ ⟨c, y ++ xs.flatMap DocItem.text, by rw [e]; rfl, hc⟩

theorem nl_stops {u : Str} (h : Stops u) : Eats (r .ws) ('\n' :: u) u (· = []) := cons_ws (wsOne_eats (by decide)) h

/-- No traits before a name or a keyword. -/
theorem noTraits {flt : Str → Option F64} {u : Str} (h : ∃ c x, u = c :: x ∧ c ∈ identHeads) :
    Eats (r .traitStatements) u u (fun ps => ∃ p, ps = [p] ∧ p.asRule = .traitStatements ∧ IdlParser.traitsOf flt p = .ok []) := by
  obtain ⟨c, y, rfl, hc⟩ := h
  have htr : ∀ c ∈ identHeads, c ∉ [' ', '\t', '\n', '\r', ',', '/'] := by decide
  have hta : ∀ c ∈ identHeads, (!mayBeEmpty null (r .aTrait) && (bounded null rank 32 (r .aTrait) && !starts 8 (r .aTrait) c)) = true := by decide
  exact traits_eats (f := ⟨fun _ => [], fun _ => []⟩) (m := ⟨.v10, [], []⟩) (flt := flt) (ns := []) (pre := []) (ts := [])
    white_nil (by simp) (solid_cons (htr c hc)) (fails 8 (hta c hc))

theorem memberLoop_docs {flt : Str → Option F64} (docs acc : List Str) (ps : List (Pair IdlRule)) :
    IdlParser.memberLoop flt acc [] none none (docs.map (fun l => .mk .documentationText l []) ++ ps) =
      IdlParser.memberLoop flt (acc ++ docs.map trimStart) [] none none ps := by
  induction docs generalizing acc with
  | nil => simp
  | cons l docs ih =>
    change IdlParser.memberLoop flt (acc ++ [trimStart l]) [] none none (docs.map (fun l => .mk .documentationText l []) ++ ps) = _
    rw [ih]
    simp

theorem docMember_eats {flt : Str → Option F64} {x : DocMember} (hd : DocLines x.docs) (hn : SmithyIdent x.name) (ht : SmithyId x.target) {u : Str} :
    Eats (r .shapeMemberKvp) (x.text ++ u) ('\n' :: u) (fun ps => ∃ p, ps = [p] ∧ p.asRule = .shapeMemberKvp ∧
        IdlParser.memberLoop flt [] [] none none p.intoInner = .ok (docMember x)) := by
  have e : x.text ++ u = docComments x.docs ++ (x.name ++ (':' :: ' ' :: (x.target.display ++ '\n' :: u))) := by
    simp [DocMember.text, smithyId_display ht]
  have hid : IdText x.target.display := smithyId_text ht
  have hts : Solid' (x.target.display ++ '\n' :: u) := by
    obtain ⟨c, y, ec, hc⟩ := hid.head
    have : ∀ c ∈ identHeads, c ∉ [' ', '\t', '\n', '\r', ',', '/'] := by decide
    rw [ec]
    exact solid_cons (this c hc)
  obtain ⟨c, y, ec, hc⟩ := (IdText.name hn).head
  have hhead : ∃ c' x', x.name ++ (':' :: ' ' :: (x.target.display ++ '\n' :: u)) = c' :: x' ∧ c' ∈ identHeads := ⟨c, _, by rw [ec]; rfl, hc⟩
  have h0 := docs_eats hd (u := x.name ++ (':' :: ' ' :: (x.target.display ++ '\n' :: u))) ⟨c, _, by rw [ec]; rfl, .inr hc⟩
  have h1 := noTraits (flt := flt) hhead
  have h2 := ident_eats (rest := ':' :: ' ' :: (x.target.display ++ '\n' :: u)) hn (nameEnd_cons (by decide))
  have h3 := colon_eats hts (shapeId_eats hid (nameEnd_cons (by decide)))
  rw [e]
  refine (Eats.normal (r := .shapeMemberKvp) rfl (h0.seq ((ws_none (solid_ident hn _)).seqL (h1.seq (h2.seq h3))))).mono ?_
  rintro _ ⟨t, _, rfl, _, _, rfl, rfl, _, _, rfl, ⟨p, rfl, hp1, hp2⟩, _, _, rfl, rfl, rfl⟩
  obtain ⟨rl, t', inner⟩ := p
  cases hp1
  refine ⟨_, rfl, rfl, ?_⟩
  have hnew : MemberBuilder.new x.name x.target.display = .ok ⟨x.name, [], .qualified x.target⟩ := by
    unfold MemberBuilder.new
    rw [fromStr_smithy hn, shapeName_id ht]
    rfl
  refine (memberLoop_docs x.docs [] _).trans ?_
  simp only [IdlParser.memberLoop, Pair.asRule, List.cons_append, List.nil_append, hp2]
  change (MemberBuilder.new x.name x.target.display >>= fun m => _) = _
  rw [hnew]
  rfl

theorem docMembers_eats {flt : Str → Option F64} {ms : List DocMember} (h : ∀ m ∈ ms, DocLines m.docs ∧ SmithyIdent m.name ∧ SmithyId m.target) (u : Str) :
    Stops (ms.flatMap DocMember.text ++ '}' :: u) ∧
    Eats (.rep (r .shapeMemberKvp ~> r .ws)) (ms.flatMap DocMember.text ++ '}' :: u) ('}' :: u)
      (List.Forall₂ (fun x p => Pair.asRule p = .shapeMemberKvp ∧ IdlParser.memberLoop flt [] [] none none p.intoInner = .ok (docMember x)) ms) := by
  induction ms with
  | nil =>
    refine ⟨ws_none (solid_cons (by decide)), (Eats.repNil (fails 24 (by decide))).mono ?_⟩
    rintro _ rfl
    exact .nil
  | cons m ms ih =>
    obtain ⟨h1, h2⟩ := ih fun x hx => h x (by simp [hx])
    obtain ⟨ha, hb, hc⟩ := h m (by simp)
    rw [List.flatMap_cons, List.append_assoc]
    constructor
    · obtain ⟨c, y, ec, hc⟩ := (IdText.name hb).head
      simp only [DocMember.text, List.append_assoc]
      exact stops_docs _ ⟨c, _, by rw [ec]; rfl, hc⟩
    · refine (((docMember_eats (flt := flt) ha hb hc).seqR (nl_stops h1)).repCons h2).mono ?_
      rintro _ ⟨_, _, rfl, ⟨p, rfl, hp⟩, hq⟩
      exact .cons hp hq

/-- The body of a documented shape. -/
theorem docBody_eats {flt : Str → Option F64} {b : DocBody} {n u : Str} (hn : SmithyIdent n)
    (h : ∀ ms, b = .struct ms → ∀ m ∈ ms, DocLines m.docs ∧ SmithyIdent m.name ∧ SmithyId m.target) :
    Eats (r .shapeBody) (b.text n ++ u) ('\n' :: u) (StatementPair flt ⟨.local' n, [], docBody b⟩) := by
  cases b with
  | simple k => simpa [DocBody.text, docBody] using simple_eats (flt := flt) k hn u
  | struct ms =>
    have e : (DocBody.struct ms).text n ++ u = %s"structure" ++ ' ' :: (n ++ ' ' :: '{' :: ('\n' :: (ms.flatMap DocMember.text ++ '}' :: '\n' :: u))) := by
      simp [DocBody.text]
    rw [e]
    obtain ⟨h1, h2⟩ := docMembers_eats (flt := flt) (h ms rfl) ('\n' :: u)
    have hm : Eats (r .shapeMembers) ('{' :: ('\n' :: (ms.flatMap DocMember.text ++ '}' :: '\n' :: u))) ('\n' :: u)
        (fun ps => ∃ p, ps = [p] ∧ p.asRule = .shapeMembers ∧ IdlParser.membersOf flt p = .ok (ms.map docMember)) := by
      refine (Eats.normal (r := .shapeMembers) rfl ((Eats.str (t := ['{'])).seqL ((nl_stops h1).seqL (h2.seqR (Eats.str (t := ['}'])))))).mono ?_
      rintro _ ⟨t, ps, rfl, hp⟩
      exact ⟨_, rfl, rfl, each_forall (List.forall₂_map_left_iff.mpr hp)⟩
    refine keyword_eats (rl := .structureStatement) (by decide) ((Eats.normal (r := .structureStatement) rfl (named_eats hn hm)).mono ?_)
    rintro _ ⟨t, _, rfl, _, rfl, p, rfl, hp1, hp2⟩
    refine ⟨_, rfl, (show IdlRule.structureStatement ∈ statementRules by decide), ?_⟩
    have := memberedOf_eq (flt := flt) (rl := .structureStatement) (t := t) (n := n) hp1 hp2
    change (IdlParser.memberedOf flt _ >>= _) = _
    rw [this]
    exact builder_named hn _

theorem item_eats {flt : Str → Option F64} {x : DocItem} (hx : x.Ok) {u : Str} (hu : Stops u) :
    Eats (r .shapeStatement) (x.text ++ u) u (fun ps => ∃ p, ps = [p] ∧ ShapePair flt (docBuilder x) p) := by
  obtain ⟨docs, k, n⟩ := x
  obtain ⟨hd, hn, hk⟩ := hx
  have e : DocItem.text ⟨docs, k, n⟩ ++ u = docComments docs ++ (k.text n ++ u) := by simp [DocItem.text]
  rw [e]
  have hs := docBody_eats (flt := flt) (u := u) hn fun ms hms => (hk ms hms).1
  obtain ⟨c, y, e, hc⟩ := body_head k n
  have htr : ∀ c ∈ identHeads, c ∉ [' ', '\t', '\n', '\r', ',', '/'] := by decide
  have hsol : Solid' (k.text n ++ u) := by rw [e]; exact solid_cons (htr c hc)
  have ht := noTraits (flt := flt) (u := k.text n ++ u) ⟨c, _, by rw [e]; rfl, hc⟩
  have hd := docs_eats hd (u := k.text n ++ u) ⟨c, _, by rw [e]; rfl, .inr hc⟩
  refine (Eats.normal (r := .shapeStatement) rfl (hd.seq ((ws_none hsol).seqL (ht.seq (hs.seqR (nl_stops hu)))))).mono ?_
  rintro _ ⟨t, _, rfl, _, _, rfl, rfl, _, _, rfl, ⟨p, rfl, hp1, hp2⟩, q, rfl, hq1, hq2⟩
  refine ⟨_, rfl, rfl, ?_⟩
  intro mb
  obtain ⟨rl, t', ps'⟩ := p
  cases hp1
  refine (statementLoop_docs docs [] _).trans ?_
  change (IdlParser.traitsOf flt (.mk .traitStatements t' ps') >>= fun ts => IdlParser.statementLoop flt mb (docs.map trimStart) ts [q]) = _
  rw [hp2]
  exact statementLoop_documented hq1 hq2

theorem items_eats {flt : Str → Option F64} {xs : List DocItem} (hx : ∀ x ∈ xs, x.Ok) :
    Eats (.rep anyStatement) (xs.flatMap DocItem.text) [] (List.Forall₂ (fun x => ShapePair flt (docBuilder x)) xs) := by
  induction xs with
  | nil =>
    refine (Eats.repNil (fails_nil (by decide))).mono ?_
    rintro _ rfl
    exact .nil
  | cons x xs ih =>
    rw [List.flatMap_cons]
    refine ((Eats.choiceL (item_eats (flt := flt) (hx x (by simp)) (stops_items xs))).repCons
      (ih fun y hy => hx y (by simp [hy]))).mono ?_
    rintro _ ⟨_, _, rfl, ⟨p, rfl, hp⟩, hq⟩
    exact .cons hp hq

theorem itemsSection_eats {flt : Str → Option F64} {xs : List DocItem} (hx : ∀ x ∈ xs, x.Ok) :
    Eats (.opt (r .shapeStatements)) (xs.flatMap DocItem.text) [] (SectionPairs flt (xs.map docBuilder)) := by
  cases xs with
  | nil =>
    refine (Eats.optNone (fails_nil (by decide))).mono ?_
    rintro _ rfl v mb more
    rfl
  | cons x xs =>
    have h : Eats (.plus anyStatement) ((x :: xs).flatMap DocItem.text) [] (List.Forall₂ (fun x => ShapePair flt (docBuilder x)) (x :: xs)) := by
      rw [List.flatMap_cons]
      refine ((Eats.choiceL (item_eats (flt := flt) (hx x (by simp)) (stops_items xs))).seq
        (items_eats (flt := flt) fun y hy => hx y (by simp [hy]))).mono ?_
      rintro _ ⟨_, _, rfl, ⟨p, rfl, hp⟩, hq⟩
      exact .cons hp hq
    refine (Eats.opt (Eats.normal (r := .shapeStatements) rfl h)).mono ?_
    rintro _ ⟨t, ps, rfl, hps⟩ v mb more
    have := statementsLoop_forall (List.forall₂_map_left_iff.mpr hps) mb
    change (IdlParser.statementsLoop flt mb ps >>= fun mb => IdlParser.sectionLoop flt v (some mb) more) = _
    rw [this]
    rfl

theorem noUse (xs : List DocItem) : Parses idlGrammar false (r .useStatement) (xs.flatMap DocItem.text) none := by
  cases xs with
  | nil => exact fails_nil (by decide)
  | cons x xs =>
    obtain ⟨docs, k, n⟩ := x
    cases docs with
    | nil =>
      cases k with
      | simple k => cases k <;> exact fails 8 (by decide)
      | struct ms => exact fails 8 (by decide)
    | cons l docs => exact fails 8 (by decide)

theorem readBuilder_docText {flt : Str → Option F64} {ns : Str} {xs : List DocItem} (hns : SmithyNamespace ns)
    (hx : ∀ x ∈ xs, x.Ok) :
    readBuilder flt (docText ns xs) = .ok (some (insertAll ⟨.v10, ns, [], []⟩ (xs.map docBuilder))) := by
  have hsolid : ∀ u, Solid' (ns ++ u) := by
    intro u
    obtain ⟨c, x, e, hc⟩ := namespace_head hns
    rw [e]
    have : ∀ c ∈ identHeads, c ∉ [' ', '\t', '\n', '\r', ',', '/'] := by decide
    exact solid_cons (this c hc)
  have hst : Eats (r .namespaceStatement) (%s"namespace" ++ ([' '] ++ (ns ++ ('\n' :: xs.flatMap DocItem.text)))) (xs.flatMap DocItem.text)
      (fun ps => ∃ t, ps = [.mk .namespaceStatement t [.mk .nsName ns []]]) := by
    refine (Eats.normal (r := .namespaceStatement) rfl (Eats.str.seqL ((ws_eats white_space (hsolid _)).seqL
      ((namespace_eats hns (by intro c s' e; injection e with e _; subst e; decide)).seqR (nl_stops (stops_items xs)))))).mono ?_
    rintro _ ⟨t, _, rfl, rfl⟩
    exact ⟨t, rfl⟩
  have hsec := Eats.normal (r := .shapeSection) rfl (Eats.opt (hst.seq ((Eats.optNone (a := r .useSection)
    (failsNormal (r := .useSection) rfl (.seqFail1 (noUse xs)))).seq (itemsSection_eats (flt := flt) hx))))
  have heoi : Eats .eoi [] [] (fun _ => True) := ⟨[], _, .eoi, trivial⟩
  obtain ⟨t', ps, hparse, hps⟩ := Eats.normal (r := .idl) rfl (Eats.soi.seqL ((ws_none (solid_cons (by decide))).seqL
    ((Eats.normal (r := .controlSection) rfl (Eats.repNil (fails 8 (by decide)))).seq
    ((Eats.normal (r := .metadataSection) rfl (Eats.repNil (fails 8 (by decide)))).seq (hsec.seq heoi)))))
  have e : docText ns xs = %s"namespace" ++ ([' '] ++ (ns ++ ('\n' :: xs.flatMap DocItem.text))) := by simp [docText]
  have hm : matchIdl (docText ns xs) = some ps := (matchIdl_iff _ _).mpr ⟨_, by rw [e]; exact hparse, rfl⟩
  obtain ⟨_, _, rfl, _, _, rfl, ⟨t1, _, rfl, rfl⟩, _, _, rfl, ⟨t2, _, rfl, rfl⟩, _, q, rfl, ⟨t3, _, rfl, _, _, rfl, ⟨t4, rfl⟩, _, ps, rfl, rfl, hps⟩, -⟩ := hps
  have hnew : ModelBuilder.new .v10 ns = .ok ⟨.v10, ns, [], []⟩ := by
    unfold ModelBuilder.new
    rw [show NamespaceID.fromStr ns = .ok ns from ?_]
    · rfl
    · exact ((C02_namespace_syntax ns).1 ns).mpr ⟨rfl, namespace_valid hns⟩
  have hsl : IdlParser.sectionLoop flt .v10 none (.mk .namespaceStatement t4 [.mk .nsName ns []] :: ps) =
      .ok (some (insertAll ⟨.v10, ns, [], []⟩ (xs.map docBuilder))) := by
    change (ModelBuilder.new .v10 ns >>= fun mb => IdlParser.sectionLoop flt .v10 (some mb) ps) = _
    rw [hnew]
    have := hps .v10 ⟨.v10, ns, [], []⟩ []
    rw [List.append_nil] at this
    exact this
  unfold readBuilder
  rw [hm]
  change ((IdlParser.sectionLoop flt .v10 none (.mk .namespaceStatement t4 [.mk .nsName ns []] :: ps) >>= fun x => pure (x, _)) >>= _) = _
  rw [hsl]
  rfl

theorem insertAll_docs (mb : ModelBuilder) (xs : List DocItem) (hnd : (AMap.keys mb.shapes ++ xs.map fun x => ShapeName.local' x.name).Nodup) :
    insertAll mb (xs.map docBuilder) = { mb with shapes := mb.shapes ++ xs.map fun x => (.local' x.name, docBuilder x) } := by
  induction xs generalizing mb with
  | nil => simp [insertAll]
  | cons x xs ih =>
    have hx : ShapeName.local' x.name ∉ AMap.keys mb.shapes := by
      intro h
      exact (List.nodup_append.mp hnd).2.2 _ h _ (by simp) rfl
    have e : mb.insert (docBuilder x) = { mb with shapes := mb.shapes ++ [(.local' x.name, docBuilder x)] } := by
      unfold ModelBuilder.insert
      rw [show AMap.insert mb.shapes (docBuilder x).name (docBuilder x) = _ from AMap.insert_of_not_mem _ hx]
      rfl
    change insertAll (mb.insert (docBuilder x)) (xs.map docBuilder) = _
    rw [e, ih]
    · simp
    · simpa [AMap.keys] using hnd

/-- What the traits of a documented shape become. -/
def docBuilt (docs : List Str) : Traits :=
  if docs.isEmpty then [] else [(⟨preludeNs, %s"documentation", none⟩, some (.string (joinWith ['\n'] (docs.map trimStart))))]

theorem makeTraits_docs (mb : ModelBuilder) (docs : List Str) : mb.makeTraits (docTraits docs) = .ok (docBuilt docs, []) := by
  cases docs with
  | nil => rfl
  | cons l docs => rfl

theorem joinWith_intercalate (sep : Str) (ts : List Str) : joinWith sep ts = List.intercalate sep ts := by
  induction ts with
  | nil => rfl
  | cons a ts ih =>
    cases ts with
    | nil => simp [joinWith, List.intercalate]
    | cons b ts =>
      simp only [joinWith, ih, List.intercalate]
      simp [List.intersperse]

theorem docBuilt_spec (docs : List Str) : DocTraits docs (docBuilt docs) := by
  cases docs with
  | nil => exact .none
  | cons l docs =>
    have h : List.Forall₂ Trimmed (l :: docs) ((l :: docs).map trimStart) := by
      rw [List.forall₂_map_right_iff]
      exact List.forall₂_same.mpr fun x _ => trimmed_trimStart x
    have := DocTraits.some (by simp) h
    rw [← joinWith_intercalate] at this
    exact this

theorem Spec.DocTraits.unique {docs : List Str} {a b : Traits} (ha : DocTraits docs a) (hb : DocTraits docs b) : a = b := by
  cases ha with
  | none => cases hb with
    | none => rfl
    | some h _ => exact absurd rfl h
  | some h h1 => cases hb with
    | none => exact absurd rfl h
    | some _ h2 =>
      have : ∀ {docs a b : List Str}, List.Forall₂ Trimmed docs a → List.Forall₂ Trimmed docs b → a = b := by
        intro docs a b h1
        induction h1 generalizing b with
        | nil => intro h2; cases h2; rfl
        | cons h _ ih => intro h2; cases h2 with | cons h' h2 => rw [h.eq h', ih h2]
      rw [this h1 h2]

/-- The member that is read. -/
def docMemberShape (x : DocMember) : MemberShape := ⟨x.name, docBuilt x.docs, x.target⟩

/-- The body that is read. -/
def docKind : DocBody → ShapeKind
  | .simple k => .simple k
  | .struct ms => .struct (ms.map fun x => (x.name, docMemberShape x))

/-- The shape that is read. -/
def docShape (ns : Str) (x : DocItem) : TopLevelShape := ⟨⟨ns, x.name, none⟩, docBuilt x.docs, docKind x.kind⟩

theorem makeBody_docs (mb : ModelBuilder) (b : DocBody)
    (h : ∀ ms, b = .struct ms → (∀ m ∈ ms, SmithyId m.target) ∧ (ms.map (·.name)).Nodup) : mb.makeBody (docBody b) = .ok (docKind b, []) := by
  cases b with
  | simple k => rfl
  | struct ms =>
    obtain ⟨h1, h2⟩ := h ms rfl
    have hm : ∀ m : DocMember, SmithyId m.target → mb.makeMember (docMember m) = .ok (docMemberShape m, []) := by
      intro m hm
      have hr : mb.resolve false (.qualified m.target) = .ok (m.target, []) := by
        unfold ModelBuilder.resolve ModelBuilder.resolveShapeName
        simp [ShapeID.isMember, hm.member]
        rfl
      have ht := makeTraits_docs mb m.docs
      unfold ModelBuilder.makeMember
      change Mk.bind (mb.resolve false (.qualified m.target)) (fun target => Mk.bind (mb.makeTraits (docTraits m.docs)) fun traits => Mk.pure _) = _
      rw [hr, ht]
      rfl
    have hl : ∀ ms : List DocMember, (∀ m ∈ ms, SmithyId m.target) → Mk.mapL mb.makeMember (ms.map docMember) = .ok (ms.map docMemberShape, []) := by
      intro ms
      induction ms with
      | nil => intro _; rfl
      | cons m ms ih =>
        intro h
        change Mk.bind (mb.makeMember (docMember m)) (fun b => Mk.bind (Mk.mapL mb.makeMember (ms.map docMember)) fun bs => Mk.pure (b :: bs)) = _
        rw [hm m (h m (by simp)), ih fun x hx => h x (by simp [hx])]
        rfl
    change Mk.bind (Mk.mapL mb.makeMember (ms.map docMember)) (fun ms => Mk.pure (ShapeKind.struct (withMembers ms))) = _
    rw [hl ms h1]
    change Except.ok (ShapeKind.struct (withMembers (ms.map docMemberShape)), _) = _
    have : withMembers (ms.map docMemberShape) = ms.map fun x => (x.name, docMemberShape x) := by
      rw [withMembers_eq]
      rw [AMap.ofList_of_wf]
      · simp [docMemberShape]
      · simpa [AMap.Wf, AMap.keys, docMemberShape, Function.comp_def] using h2
    rw [this]
    rfl

theorem docKind_reads (b : DocBody) (h : ∀ ms, b = .struct ms → (ms.map (·.name)).Nodup) : b.Reads (docKind b) := by
  cases b with
  | simple k => exact .simple
  | struct ms =>
    have hwf : AMap.Wf (ms.map fun x => (x.name, docMemberShape x)) := by
      simpa [AMap.Wf, AMap.keys, Function.comp_def] using h ms rfl
    refine .struct fun k m => ⟨?_, ?_⟩
    · intro hk
      obtain ⟨x, hx, e⟩ := List.mem_map.mp (AMap.mem_of_get hk)
      injection e with e1 e2
      subst e1 e2
      exact ⟨x, hx, rfl, rfl, rfl, docBuilt_spec x.docs⟩
    · rintro ⟨x, hx, rfl, h1, h2, h3⟩
      refine AMap.get_of_mem hwf (List.mem_map.mpr ⟨x, hx, ?_⟩)
      obtain ⟨id, ts, b⟩ := m
      cases h1
      cases h2
      cases (docBuilt_spec x.docs).unique h3
      rfl

theorem parseModel_docText {flt : Str → Option F64} {enum : List ShapeID → List ShapeID} (he : Enumerates enum) {ns : Str} {xs : List DocItem}
    (hns : SmithyNamespace ns) (hx : ∀ x ∈ xs, x.Ok)
    (hnd : (xs.map (·.name)).Nodup) :
    parseModel flt enum (docText ns xs) = .ok ⟨.v10, [], xs.map fun x => (⟨ns, x.name, none⟩, docShape ns x)⟩ := by
  have hr := readBuilder_docText (flt := flt) hns hx
  have hloc : (xs.map fun x => ShapeName.local' x.name).Nodup := by
    have := List.Nodup.map (f := ShapeName.local') (fun a b h => by injection h) hnd
    simpa [List.map_map, Function.comp_def] using this
  rw [insertAll_docs ⟨.v10, ns, [], []⟩ xs (by simpa [AMap.keys] using hloc)] at hr
  have hen : enum [] = [] := List.eq_nil_iff_forall_not_mem.mpr fun id hid => by simpa using (he.mem [] id).mp hid
  unfold parseModel
  rw [hr]
  obtain ⟨_, -, -, -, hf⟩ := readBuilder_fromFile hr
  generalize hmb : (ModelBuilder.mk .v10 ns [] ([] ++ xs.map fun x => (ShapeName.local' x.name, docBuilder x))) = mb at hf
  have hshapes : mb.shapes = xs.map fun x => (ShapeName.local' x.name, docBuilder x) := by rw [← hmb]; rfl
  have hdef : mb.defaultNs = ns := by rw [← hmb]
  change ModelBuilder.build mb enum = _
  rw [build_ok hf.wf]
  refine ⟨xs.map (docShape ns), [], ?_, ?_⟩
  · have e : AMap.values mb.shapes = xs.map docBuilder := by simp [AMap.values, hshapes]
    rw [e]
    have himp : ∀ n id, ¬ Imports mb n id := by
      rintro n id ⟨b, hb, -⟩
      have := AMap.mem_of_get hb
      rw [hshapes] at this
      simp at this
    have main : ∀ ys : List DocItem, (∀ y ∈ ys, y ∈ xs) → Mk.mapL mb.makeShape (ys.map docBuilder) = .ok (ys.map (docShape ns), []) := by
      intro ys
      induction ys with
      | nil => intro _; rfl
      | cons y ys ih =>
        intro hin
        have hdefn : DefinedLocally mb y.name := by
          refine ⟨docBuilder y, AMap.get_of_mem hf.wf.nodup ?_⟩
          rw [hshapes]
          exact List.mem_map.mpr ⟨y, hin y (by simp), rfl⟩
        have h1 : mb.resolveShapeName (.local' y.name) false = .ok (⟨ns, y.name, none⟩, false) := by
          rw [← hdef]
          exact (resolveShapeName_iff hf.wf _ _ _ _).mpr (.defined (himp _) hdefn)
        have h2 : mb.makeShape (docBuilder y) = .ok (docShape ns y, []) := by
          have h3 : mb.makeId (docBuilder y) = .ok (⟨ns, y.name, none⟩, []) := by
            have e : mb.makeId (docBuilder y) = mb.resolve false (.local' y.name) := by
              obtain ⟨_, k, _⟩ := y
              cases k <;> rfl
            rw [e]
            unfold ModelBuilder.resolve
            rw [h1]
            rfl
          have h4 : mb.makeBody (docBuilder y).body = .ok (docKind y.kind, []) :=
            makeBody_docs mb y.kind fun ms hms => ⟨fun m hm => (((hx y (hin y (by simp))).2.2 ms hms).1 m hm).2.2, ((hx y (hin y (by simp))).2.2 ms hms).2⟩
          have h5 : mb.makeTraits (docBuilder y).traits = .ok (docBuilt y.docs, []) := makeTraits_docs mb y.docs
          unfold ModelBuilder.makeShape
          rw [h3, h4, h5]
          rfl
        change Mk.bind (mb.makeShape (docBuilder y)) (fun b => Mk.bind (Mk.mapL mb.makeShape (ys.map docBuilder)) fun bs => Mk.pure (b :: bs)) = _
        rw [h2, ih fun z hz => hin z (by simp [hz])]
        rfl
    exact main xs fun _ h => h
  · have e : (mb.version, mb.metadata) = (.v10, []) := by rw [← hmb]
    injection e with e1 e2
    rw [hen, e1, e2, List.map_nil, List.append_nil]
    have hwf : AMap.Wf ([] ++ (xs.map (docShape ns)).map fun s => (s.id, s)) := by
      unfold AMap.Wf AMap.keys
      have := List.Nodup.map (f := fun n : Str => (⟨ns, n, none⟩ : ShapeID)) (fun a b h => by injection h) hnd
      simpa [List.map_map, Function.comp_def, docShape] using this
    rw [addAllIgnoring_fresh .v10 [] (xs.map (docShape ns)) [] hwf (by simp [docShape])]
    simp [docShape]

/-- C61: documentation comments before a shape or a member are read as its documentation: the lines, without the white space
at their start, separated by line ends. A shape or a member without comments has none, and the comments of one do not reach
another. -/
theorem C61_documentation (flt : Str → Option F64) (enum : List ShapeID → List ShapeID) (he : Enumerates enum) (ns : Str) (xs : List DocItem)
    (hns : SmithyNamespace ns) (hx : ∀ x ∈ xs, x.Ok) (hnd : (xs.map (·.name)).Nodup) :
    ∃ m, parseModel flt enum (docText ns xs) = .ok m ∧ m.version = .v10 ∧ m.metadata = [] ∧
      (∀ x ∈ xs, ∃ s, m.shape ⟨ns, x.name, none⟩ = some s ∧ x.kind.Reads s.body ∧ DocTraits x.docs s.traits) ∧
      ∀ id s, m.shape id = some s → ∃ x ∈ xs, id = ⟨ns, x.name, none⟩ := by
  refine ⟨_, parseModel_docText he hns hx hnd, rfl, rfl, ?_, ?_⟩
  · intro x hin
    have hwf : AMap.Wf (xs.map fun x => ((⟨ns, x.name, none⟩ : ShapeID), docShape ns x)) := by
      unfold AMap.Wf AMap.keys
      have := List.Nodup.map (f := fun n : Str => (⟨ns, n, none⟩ : ShapeID)) (fun a b h => by injection h) hnd
      simpa [List.map_map, Function.comp_def, docShape] using this
    refine ⟨docShape ns x, AMap.get_of_mem hwf (List.mem_map.mpr ⟨x, hin, rfl⟩), ?_, docBuilt_spec x.docs⟩
    exact docKind_reads x.kind fun ms hms => ((hx x hin).2.2 ms hms).2
  · intro id s h
    obtain ⟨x, hx, e⟩ := List.mem_map.mp (AMap.mem_of_get h)
    injection e with e1 e2
    exact ⟨x, hx, e1.symm⟩

/-- The shapes of the example: one with two lines of documentation, and a structure with a documented member. -/
def exDocs : List DocItem :=
  [⟨[%s" One", %s"  two"], .simple .string, %s"N"⟩,
   ⟨[], .struct [⟨[%s"a"], %s"a", ⟨%s"a.b", %s"N", none⟩⟩, ⟨[], %s"b", ⟨%s"a.b", %s"N", none⟩⟩], %s"M"⟩]

example : docText %s"a.b" exDocs = %s"namespace a.b\n/// One\n///  two\nstring N\nstructure M {\n///a\na: a.b#N\nb: a.b#N\n}\n" := by decide

example : (∀ x ∈ exDocs, x.Ok) ∧ (exDocs.map (·.name)).Nodup := by
  have hns : SmithyNamespace %s"a.b" := ⟨[%s"a", %s"b"], by simp, by
      intro p hp
      simp only [List.mem_cons, List.not_mem_nil, or_false] at hp
      rcases hp with rfl | rfl <;> exact .plain (by decide) (by decide), rfl⟩
  refine ⟨?_, by decide⟩
  intro x hx
  simp only [exDocs, List.mem_cons, List.not_mem_nil, or_false] at hx
  rcases hx with rfl | rfl
  · exact ⟨by unfold DocLines CommentChar; decide, .plain (by decide) (by decide), by intro ms h; cases h⟩
  · refine ⟨by unfold DocLines CommentChar; decide, .plain (by decide) (by decide), ?_⟩
    intro ms h
    cases h
    refine ⟨?_, by decide⟩
    intro m hm
    simp only [List.mem_cons, List.not_mem_nil, or_false] at hm
    rcases hm with rfl | rfl
    · exact ⟨by unfold DocLines CommentChar; decide, .plain (by decide) (by decide), hns, .plain (by decide) (by decide), rfl⟩
    · exact ⟨by unfold DocLines CommentChar; decide, .plain (by decide) (by decide), hns, .plain (by decide) (by decide), rfl⟩

end Verif
