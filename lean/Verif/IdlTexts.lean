/-
C58, C60: values in texts: names that start like a keyword, and escapes in strings.
-/
import Verif.IdlRoundTrip
import Verif.IdlImage

namespace Verif
open Peg Spec
open IdlGrammar (r)

/-- A text with one metadata statement and a namespace. -/
def metaText (k t ns : Str) : Str := %s"metadata " ++ k ++ %s" = " ++ t ++ %s"\nnamespace " ++ ns ++ %s"\n"

theorem metaStatement_eats {flt : Str → Option F64} {k t u : Str} {v : Value} (hk : SmithyIdent k) (ht : NodeText flt t v) (hu : Solid' u) :
    Eats (r .metadataStatement) (%s"metadata" ++ ([' '] ++ (k ++ ([' '] ++ ('=' :: ([' '] ++ (t ++ (['\n'] ++ u)))))))) u
      (fun ps => ∃ p, ps = [p] ∧ p.asRule = .metadataStatement ∧ IdlParser.kvpOf flt p = .ok (k, v)) := by
  have h1 := ht.eats (['\n'] ++ u) (valueEnd_cons (by decide))
  refine (Eats.normal (r := .metadataStatement) rfl (Eats.str.seqL ((ws_eats white_space (solid_ident hk _)).seqL
    ((key_eats hk (nameEnd_cons (by decide))).seq ((ws_eats white_space (solid_cons (by decide))).seqL
    ((Eats.str (t := ['='])).seqL ((ws_eats white_space (solid_value ht.head _)).seqL (h1.seqR (ws_eats (white_nl white_nil) hu)))))))) ).mono ?_
  rintro _ ⟨t, _, rfl, _, _, rfl, rfl, p, rfl, hp1, hp2⟩
  obtain ⟨rl, t', ps'⟩ := p
  cases hp1
  refine ⟨_, rfl, rfl, ?_⟩
  simp only [IdlParser.kvpOf, List.cons_append, List.nil_append, IdlParser.kvpLoop, Pair.asRule, Pair.asStr, hp2]

theorem readBuilder_metaText {flt : Str → Option F64} {k t ns : Str} {v : Value} (hk : SmithyIdent k) (ht : NodeText flt t v) (hns : SmithyNamespace ns) :
    readBuilder flt (metaText k t ns) = .ok (some ⟨.v10, ns, [(k, v)], []⟩) := by
  have hsolid : ∀ u, Solid' (ns ++ u) := by
    intro u
    obtain ⟨c, x, e, hc⟩ := namespace_head hns
    rw [e]
    have : ∀ c ∈ identHeads, c ∉ [' ', '\t', '\n', '\r', ',', '/'] := by decide
    exact solid_cons (this c hc)
  have hst : Eats (r .namespaceStatement) (%s"namespace" ++ ([' '] ++ (ns ++ (['\n'] ++ [])))) []
      (fun ps => ∃ t, ps = [.mk .namespaceStatement t [.mk .nsName ns []]]) := by
    refine (Eats.normal (r := .namespaceStatement) rfl (Eats.str.seqL ((ws_eats white_space (hsolid _)).seqL
      ((namespace_eats hns (by intro c s' e; injection e with e _; subst e; decide)).seqR (ws_eats (white_nl white_nil) solid_nil))))).mono ?_
    rintro _ ⟨t, _, rfl, rfl⟩
    exact ⟨t, rfl⟩
  have hsec := Eats.normal (r := .shapeSection) rfl (Eats.opt (hst.seq ((Eats.optNone (a := r .useSection) (fails_nil (by decide))).seq
    (Eats.optNone (a := r .shapeStatements) (fails_nil (by decide))))))
  have hmeta := metaStatement_eats (u := %s"namespace" ++ ([' '] ++ (ns ++ (['\n'] ++ [])))) hk ht (solid_cons (by decide))
  have heoi : Eats .eoi [] [] (fun _ => True) := ⟨[], _, .eoi, trivial⟩
  obtain ⟨t', ps, hparse, hps⟩ := Eats.normal (r := .idl) rfl (Eats.soi.seqL ((ws_none (solid_cons (by decide))).seqL
    ((Eats.normal (r := .controlSection) rfl (Eats.repNil (fails 8 (by decide)))).seq
    ((Eats.normal (r := .metadataSection) rfl (hmeta.repCons (Eats.repNil (fails 8 (by decide))))).seq (hsec.seq heoi)))))
  have e : metaText k t ns = %s"metadata" ++ ([' '] ++ (k ++ ([' '] ++ ('=' :: ([' '] ++ (t ++ (['\n'] ++ (%s"namespace" ++ ([' '] ++ (ns ++ (['\n'] ++ []))))))))))) := by
    simp [metaText]
  have hm : matchIdl (metaText k t ns) = some ps := (matchIdl_iff _ _).mpr ⟨_, by rw [e]; exact hparse, rfl⟩
  obtain ⟨_, _, rfl, _, _, rfl, ⟨t1, _, rfl, rfl⟩, _, _, rfl, ⟨t2, _, rfl, _, _, rfl, ⟨p, rfl, hp1, hp2⟩, rfl⟩, _, q, rfl, ⟨t3, _, rfl, _, _, rfl, ⟨t4, rfl⟩, _, _, rfl, rfl, rfl⟩, -⟩ := hps
  have hnew : ModelBuilder.new .v10 ns = .ok ⟨.v10, ns, [], []⟩ := by
    unfold ModelBuilder.new
    rw [show NamespaceID.fromStr ns = .ok ns from ?_]
    · rfl
    · exact ((C02_namespace_syntax ns).1 ns).mpr ⟨rfl, namespace_valid hns⟩
  have hent : IdlParser.entriesOf flt .metadataStatement [] [p] = .ok [(k, v)] := by
    simp only [IdlParser.entriesOf, hp1, if_true, hp2]
    rfl
  have hsl : IdlParser.sectionLoop flt .v10 none [.mk .namespaceStatement t4 [.mk .nsName ns []]] = .ok (some ⟨.v10, ns, [], []⟩) := by
    change (ModelBuilder.new .v10 ns >>= fun mb => IdlParser.sectionLoop flt .v10 (some mb) []) = _
    rw [hnew]
    rfl
  unfold readBuilder
  rw [hm]
  change (IdlParser.entriesOf flt .metadataStatement [] [p] >>= fun x => pure (x, _)) >>= _ = _
  rw [hent]
  change ((IdlParser.sectionLoop flt .v10 none [.mk .namespaceStatement t4 [.mk .nsName ns []]] >>= fun x => pure (x, _)) >>= _) = _
  rw [hsl]
  rfl

/-- The value is that of the metadata. -/
theorem parseModel_metaText {flt : Str → Option F64} {enum : List ShapeID → List ShapeID} (he : Enumerates enum) {k t ns : Str} {v : Value}
    (hk : SmithyIdent k) (ht : NodeText flt t v) (hns : SmithyNamespace ns) :
    parseModel flt enum (metaText k t ns) = .ok ⟨.v10, [(k, v)], []⟩ := by
  unfold parseModel
  rw [readBuilder_metaText hk ht hns]
  have : enum [] = [] := List.eq_nil_iff_forall_not_mem.mpr fun id hid => by simpa using (he.mem [] id).mp hid
  change ModelBuilder.build ⟨.v10, ns, [(k, v)], []⟩ enum = _
  obtain ⟨_, -, -, -, hf⟩ := readBuilder_fromFile (readBuilder_metaText hk ht hns)
  rw [build_ok hf.wf]
  exact ⟨[], [], rfl, by rw [this]; rfl⟩

/-! ### C58: names that start like a keyword -/

namespace Spec

/-- The keywords of values, and what they stand for. -/
inductive Keyword : Str → Value → Prop
  | true : Keyword %s"true" (.boolean Bool.true)
  | false : Keyword %s"false" (.boolean Bool.false)
  | null : Keyword %s"null" .none

/-- The name does not start with a keyword. -/
def NotKeyword (n : Str) : Prop := ∀ k v, Keyword k v → ¬ k <+: n

end Spec

/-- C58: a name that does not start with a keyword is read as this name. -/
theorem C58_name (flt : Str → Option F64) (enum : List ShapeID → List ShapeID) (he : Enumerates enum) (k n ns : Str) (hk : SmithyIdent k)
    (hns : SmithyNamespace ns) (hn : SmithyIdent n) (hw : NotKeyword n) :
    parseModel flt enum (metaText k n ns) = .ok ⟨.v10, [(k, .string n)], []⟩ :=
  parseModel_metaText he hk (name_text hn (hw _ _ .true) (hw _ _ .false) (hw _ _ .null)) hns

theorem kwValue_eats {flt : Str → Option F64} {w : Str} {v : Value} (h : Keyword w v) (rest : Str) :
    Eats (r .nodeValue) (w ++ rest) rest (fun ps => ∃ p, ps = [p] ∧ p.asRule = .nodeValue ∧ IdlParser.nodeValueOf flt p = .ok v) := by
  cases h with
  | true =>
    refine nodeValue_eats (.choiceR (fails 8 (by decide)) (.choiceR (fails 8 (by decide)) (.choiceR (fails 8 (by decide)) (.choiceL ?_))))
    refine ((Eats.normal (r := .kwTrue) (rest := rest) rfl (Eats.str (t := %s"true"))).choiceL.silent (r := .nodeKeywords) rfl).mono ?_
    rintro _ ⟨t, ps', rfl, -⟩
    exact ⟨_, rfl, rfl⟩
  | false =>
    refine nodeValue_eats (.choiceR (fails 8 (by decide)) (.choiceR (fails 8 (by decide)) (.choiceR (fails 8 (by decide)) (.choiceL ?_))))
    refine ((Eats.choiceR (fails 8 (by decide))
      ((Eats.normal (r := .kwFalse) (rest := rest) rfl (Eats.str (t := %s"false"))).choiceL)).silent (r := .nodeKeywords) rfl).mono ?_
    rintro _ ⟨t, ps', rfl, -⟩
    exact ⟨_, rfl, rfl⟩
  | null =>
    refine nodeValue_eats (.choiceR (fails 8 (by decide)) (.choiceR (fails 8 (by decide)) (.choiceR (fails 8 (by decide)) (.choiceL ?_))))
    refine ((Eats.choiceR (fails 8 (by decide)) (Eats.choiceR (fails 8 (by decide))
      (Eats.normal (r := .kwNull) (rest := rest) rfl (Eats.str (t := %s"null"))))).silent (r := .nodeKeywords) rfl).mono ?_
    rintro _ ⟨t, ps', rfl, -⟩
    exact ⟨_, rfl, rfl⟩

theorem keyword_head {w : Str} {v : Value} (h : Keyword w v) (u : Str) : Solid' (w ++ u) := by
  cases h <;> exact solid_cons (by decide)

/-- C58 is violated: in an array, a name that is a keyword and another name is read as the keyword and the other name. -/
theorem C58_keyword_split (flt : Str → Option F64) (enum : List ShapeID → List ShapeID) (he : Enumerates enum) (k n ns w : Str) (v : Value) (hk : SmithyIdent k)
    (hns : SmithyNamespace ns) (hn : SmithyIdent n) (hw : NotKeyword n) (hv : Keyword w v) :
    parseModel flt enum (metaText k (%s"[" ++ (w ++ n) ++ %s"]") ns) = .ok ⟨.v10, [(k, .array [v, .string n])], []⟩ := by
  refine parseModel_metaText he hk ⟨⟨'[', _, rfl, by decide⟩, fun rest _ => ?_⟩ hns
  have ht := name_text (flt := flt) hn (hw _ _ .true) (hw _ _ .false) (hw _ _ .null)
  have h2 := ht.eats (']' :: rest) (valueEnd_cons (by decide))
  have h1 := kwValue_eats (flt := flt) hv (n ++ ']' :: rest)
  have hrep := ((h1.seqR (ws_none (solid_ident hn _))).repCons ((h2.seqR (ws_none (solid_cons (by decide)))).repCons
    (Eats.repNil (fails 20 (by decide)))))
  have e : %s"[" ++ (w ++ n) ++ %s"]" ++ rest = %s"[" ++ (w ++ (n ++ ']' :: rest)) := by simp
  rw [e]
  refine nodeValue_eats (.choiceL ((Eats.normal (r := .nodeArray) rfl (Eats.str.seqL ((ws_none (keyword_head hv _)).seqL (hrep.seqR (Eats.str (t := [']'])))))).mono ?_))
  rintro _ ⟨t, _, rfl, _, _, rfl, ⟨p, rfl, hp1, hp2⟩, _, _, rfl, ⟨q, rfl, hq1, hq2⟩, rfl⟩
  refine ⟨_, rfl, ?_⟩
  have := arrayOf_forall (flt := flt) (vs := [v, .string n]) (ps := [p, q]) (.cons ⟨hp1, hp2⟩ (.cons ⟨hq1, hq2⟩ .nil))
  simp only [IdlParser.innerValue, List.cons_append, List.nil_append, this]
  rfl

example : SmithyIdent %s"able" ∧ NotKeyword %s"able" :=
  ⟨.plain (by decide) (by decide), by rintro k v ⟨⟩ <;> decide⟩

/-! ### C60: escapes in strings -/

namespace Spec

/-- The inside of a quoted text: characters that stand for themselves, and escapes. -/
inductive Escaped : Str → Prop
  | nil : Escaped []
  | plain {c u} : PlainChar c → Escaped u → Escaped (c :: u)
  | escape {c u} : PlainChar c ∨ c = '\\' ∨ c = '"' → Escaped u → Escaped ('\\' :: c :: u)

end Spec

/-- One round of the loop over the characters. -/
abbrev quotedOne : Expr IdlRule := .chr plainChar <||> r .escapedChar <||> r .preservedDouble

theorem atomicRule {x : IdlRule} {s t s' : Str} (h : Parses idlGrammar true (IdlGrammar.body x) s (some (t, s', []))) :
    Parses idlGrammar true (.rule x) s (some (t, s', [])) := by
  have := Parses.rule (g := idlGrammar) (m := true) (r := x) (t := t) (s' := s') (ps := []) (s := s) (by rw [show idlGrammar.mode true x = true from rfl]; exact h)
  simpa [Grammar.pairs] using this

theorem atomicFails {x : IdlRule} {s : Str} (h : Parses idlGrammar true (IdlGrammar.body x) s none) : Parses idlGrammar true (.rule x) s none :=
  .ruleFail (by rw [show idlGrammar.mode true x = true from rfl]; exact h)

theorem escape_tail {t : Str} (h : Tree idlGrammar true (r .escape <||> .str %s"'" <||> r .DQUOTE <||> .str %s"b" <||> .str %s"f" <||> .str %s"n" <||>
      .str %s"r" <||> .str %s"t" <||> .str %s"/" <||> r .unicodeEscape) t []) :
    (∃ d, t = [d]) ∨ ∃ a b c d, t = ['u', a, b, c, d] ∧ ∀ x ∈ [a, b, c, d], hexDigit x = true := by
  have one : ∀ {u : Str} {d : Char}, Tree idlGrammar true (.str [d]) u [] → ∃ d, u = [d] := fun h => ⟨_, h.str_eq.1⟩
  cases h with
  | choiceL h => exact .inl (one (show Tree idlGrammar true (.str ['\\']) t [] from h.body))
  | choiceR _ h =>
  cases h with
  | choiceL h => exact .inl (one h)
  | choiceR _ h =>
  cases h with
  | choiceL h => exact .inl (one (show Tree idlGrammar true (.str ['"']) t [] from h.body))
  | choiceR _ h =>
  cases h with
  | choiceL h => exact .inl (one h)
  | choiceR _ h =>
  cases h with
  | choiceL h => exact .inl (one h)
  | choiceR _ h =>
  cases h with
  | choiceL h => exact .inl (one h)
  | choiceR _ h =>
  cases h with
  | choiceL h => exact .inl (one h)
  | choiceR _ h =>
  cases h with
  | choiceL h => exact .inl (one h)
  | choiceR _ h =>
  cases h with
  | choiceL h => exact .inl (one h)
  | choiceR _ h =>
    obtain ⟨t1, t2, rfl, h1, h2⟩ := h.body.parts
    obtain ⟨t3, t4, rfl, h3, h4⟩ := h2.parts
    obtain ⟨t5, t6, rfl, h5, h6⟩ := h4.parts
    obtain ⟨t7, t8, rfl, h7, h8⟩ := h6.parts
    obtain ⟨rfl, -⟩ := h1.str_eq
    obtain ⟨a, rfl, ha⟩ := h3.chr_one
    obtain ⟨b, rfl, hb⟩ := h5.chr_one
    obtain ⟨c, rfl, hc⟩ := h7.chr_one
    obtain ⟨d, rfl, hd⟩ := h8.chr_one
    exact .inr ⟨a, b, c, d, rfl, by simp [ha, hb, hc, hd]⟩

theorem escaped_hex {a : Char} {u rest s' : Str} (h : Escaped u) (ha : hexDigit a = true) (e : u ++ '"' :: rest = a :: s') :
    ∃ u', u = a :: u' ∧ Escaped u' ∧ s' = u' ++ '"' :: rest := by
  cases h with
  | nil => injection e with e _; subst e; exact absurd ha (by decide)
  | @plain c u _ hu => injection e with e1 e2; exact ⟨u, by rw [e1], hu, e2.symm⟩
  | escape => injection e with e _; subst e; exact absurd ha (by decide)

/-- The loop takes a part of the text before the closing quote. -/
theorem quotedOne_step {u : Str} (h : Escaped u) (hne : u ≠ []) (rest : Str) :
    ∃ x u', u = x ++ u' ∧ x ≠ [] ∧ Escaped u' ∧ Parses idlGrammar true quotedOne (u ++ '"' :: rest) (some (x, u' ++ '"' :: rest, [])) := by
  cases h with
  | nil => exact absurd rfl hne
  | @plain c u hc hu => exact ⟨[c], u, rfl, by simp, hu, .choiceL (.chr (plainChar_of hc))⟩
  | @escape c u hc hu =>
    have hnp : Parses idlGrammar true (.chr plainChar) ('\\' :: c :: u ++ '"' :: rest) none := fails 8 (by decide)
    have hesc : ∀ s, Parses idlGrammar true (r .escape) ('\\' :: s) (some (['\\'], s, [])) := fun s => atomicRule (.str (stripPrefix_append ['\\'] s))
    have hq : ∀ s, Parses idlGrammar true (r .DQUOTE) ('"' :: s) (some (['"'], s, [])) := fun s => atomicRule (.str (stripPrefix_append ['"'] s))
    have two : ∀ {e : Expr IdlRule} {d : Char} {s : Str}, Parses idlGrammar true e (d :: s) (some ([d], s, [])) →
        Parses idlGrammar true (r .escape ~> e) ('\\' :: d :: s) (some (['\\', d], s, [])) := by
      intro e d s h
      have := Parses.seq (g := idlGrammar) (m := true) (hesc (d :: s)) (by rw [skip_true]; exact h)
      rw [skip_true] at this
      exact this
    rcases hc with hc | rfl | rfl
    · obtain ⟨res, hres⟩ := idl_total true (e := r .escapedChar) (by decide) ('\\' :: c :: u ++ '"' :: rest)
      cases res with
      | none => exact ⟨['\\', c], u, rfl, by simp, hu, .choiceR hnp (.choiceR hres (atomicRule (two (.chr (plainChar_of hc)))))⟩
      | some y =>
        obtain ⟨x, s', ps⟩ := y
        have hsplit := hres.split _ _ _ rfl
        have htree := hres.tree _ _ _ rfl
        obtain rfl := htree.noPairs
        obtain ⟨t1, t2, rfl, h1, h2⟩ := htree.body.parts
        obtain ⟨rfl, -⟩ := (show Tree idlGrammar true (.str ['\\']) t1 [] from h1.body).str_eq
        rcases escape_tail h2 with ⟨d, rfl⟩ | ⟨a, b, x, d, rfl, hx⟩
        · injection hsplit with _ hsplit
          injection hsplit with h3 h4
          subst h3
          have h4 : u ++ '"' :: rest = s' := h4
          subst h4
          exact ⟨['\\', c], u, rfl, by simp, hu, .choiceR hnp (.choiceL hres)⟩
        · injection hsplit with _ hsplit
          injection hsplit with h3 h4
          subst h3
          simp only [List.mem_cons, List.not_mem_nil, or_false, forall_eq_or_imp, forall_eq] at hx
          obtain ⟨u1, rfl, hu, h4⟩ := escaped_hex hu hx.1 h4
          obtain ⟨u2, rfl, hu, h4⟩ := escaped_hex hu hx.2.1 h4.symm
          obtain ⟨u3, rfl, hu, h4⟩ := escaped_hex hu hx.2.2.1 h4.symm
          obtain ⟨u4, rfl, hu, h4⟩ := escaped_hex hu hx.2.2.2 h4.symm
          have h4 : s' = u4 ++ '"' :: rest := h4
          subst h4
          exact ⟨['\\', 'u', a, b, x, d], u4, rfl, by simp, hu, .choiceR hnp (.choiceL hres)⟩
    · exact ⟨['\\', '\\'], u, rfl, by simp, hu, .choiceR hnp (.choiceL (atomicRule (two (.choiceL (hesc _)))))⟩
    · exact ⟨['\\', '"'], u, rfl, by simp, hu, .choiceR hnp (.choiceL (atomicRule (two (.choiceR (fails 8 (by decide)) (.choiceR (fails 8 (by decide)) (.choiceL (hq _)))))))⟩

theorem escaped_body {u : Str} (h : Escaped u) (rest : Str) :
    Parses idlGrammar true (IdlGrammar.body .quotedChars) (u ++ '"' :: rest) (some (u, '"' :: rest, [])) := by
  have hend : Parses idlGrammar true quotedOne ('"' :: rest) none := fails 8 (by decide)
  have more : ∀ (n : Nat) (u : Str), u.length ≤ n → Escaped u → Parses idlGrammar true (.more quotedOne) (u ++ '"' :: rest) (some (u, '"' :: rest, [])) := by
    intro n
    induction n with
    | zero =>
      intro u hn _
      have : u = [] := List.length_eq_zero_iff.mp (by omega)
      subst this
      exact .moreNone (by rw [skip_true]; exact hend)
    | succ n ih =>
      intro u hn hu
      by_cases hne : u = []
      · subst hne
        exact .moreNone (by rw [skip_true]; exact hend)
      · obtain ⟨x, u', rfl, hx, hu', hp⟩ := quotedOne_step hu hne rest
        have hl : 0 < x.length := List.length_pos_iff.mpr hx
        have := Parses.moreSome (g := idlGrammar) (m := true) (s := x ++ u' ++ '"' :: rest) (by rw [skip_true]; exact hp)
          (ih u' (by rw [List.length_append] at hn; omega) hu')
        rw [skip_true] at this
        exact this
  by_cases hne : u = []
  · subst hne
    exact .repNone hend
  · obtain ⟨x, u', rfl, hx, hu', hp⟩ := quotedOne_step h hne rest
    exact .repSome hp (more _ u' le_rfl hu')

theorem escaped_eats {u : Str} (h : Escaped u) (rest : Str) :
    Eats (r .quotedText) ('"' :: u ++ '"' :: rest) rest (· = [.mk .quotedText ('"' :: u ++ ['"']) [.mk .quotedChars u []]]) := by
  have e : '"' :: u ++ '"' :: rest = ('"' :: u ++ ['"']) ++ rest := by simp
  rw [e]
  refine (Eats.normalText (r := .quotedText) (Q := (· = [.mk .quotedChars u []])) rfl ?_).mono ?_
  · have h1 : Eats (r .DQUOTE) ('"' :: (u ++ '"' :: rest)) (u ++ '"' :: rest) (· = []) := .silent rfl (Eats.str (t := ['"']))
    have h2 : Eats (r .quotedChars) (u ++ '"' :: rest) ('"' :: rest) (· = [.mk .quotedChars u []]) := .atomic rfl (escaped_body h rest)
    have h3 : Eats (r .DQUOTE) ('"' :: rest) rest (· = []) := .silent rfl (Eats.str (t := ['"']))
    have := h1.seqL (h2.seqR h3)
    simp only [List.cons_append, List.append_assoc, List.nil_append]
    exact this
  · rintro _ ⟨_, rfl, rfl⟩
    rfl

theorem escaped_text {flt : Str → Option F64} {s : Str} (h : Escaped s) : NodeText flt ('"' :: s ++ ['"']) (.string s) := by
  refine ⟨⟨_, _, rfl, by decide⟩, fun rest hr => ?_⟩
  have e : '"' :: s ++ ['"'] ++ rest = '"' :: s ++ '"' :: rest := by simp
  rw [e]
  have q := escaped_eats h rest
  have hblock : Parses idlGrammar false (r .textBlock) ('"' :: s ++ '"' :: rest) none := by
    refine failsNormal rfl (.seqFail1 ?_)
    have d : ∀ u, Eats (r .DQUOTE) ('"' :: u) u (· = []) := fun u => .silent rfl (Eats.str (t := ['"']))
    have first : ∀ {c : Char} {s : Str}, c ≠ '"' → Parses idlGrammar false (r .DQUOTE ~> r .DQUOTE ~> r .DQUOTE) ('"' :: c :: s) none := by
      intro c s hc
      refine failsSeq (d _) (.seqFail1 (failsSilent rfl (strFail_head (g := idlGrammar) ?_)))
      intro c' s' e
      injection e with e _
      rw [← e]
      exact hc
    cases h with
    | nil =>
      refine failsSeq (d _) (failsSeq (d _) ?_)
      refine failsSilent rfl (strFail_head (g := idlGrammar) ?_)
      intro c s' e
      have : ∀ c ∈ [',', ']', '}', ')', '\n', ' ', '\t', '\r', '/'], c ≠ '"' := by decide
      exact this c (hr c s' e)
    | plain hc _ => exact first hc.2.2.1
    | escape _ _ => exact first (by decide)
  refine nodeValue_eats (.choiceR (fails 8 (by decide)) (.choiceR (fails 8 (by decide)) (.choiceR (fails 8 (by decide))
    (.choiceR (fails 8 (by decide)) (.choiceR (fails 12 (by decide)) (.choiceR hblock (q.mono ?_)))))))
  rintro _ rfl
  exact ⟨_, rfl, rfl⟩

/-- C60 is violated: whatever is between the quotes is the string: escapes are accepted, and are not decoded. -/
theorem C60_escapes_kept (flt : Str → Option F64) (enum : List ShapeID → List ShapeID) (he : Enumerates enum) (k u ns : Str) (hk : SmithyIdent k)
    (hns : SmithyNamespace ns) (hu : Escaped u) : parseModel flt enum (metaText k ('"' :: u ++ ['"']) ns) = .ok ⟨.v10, [(k, .string u)], []⟩ :=
  parseModel_metaText he hk (escaped_text hu) hns

/-- A line break, written as an escape, is read as a backslash and a letter. -/
example : Escaped ['a', '\\', 'n', '\\', '"'] :=
  .plain (by unfold PlainChar; decide) (.escape (.inl (by unfold PlainChar; decide)) (.escape (.inr (.inr rfl)) .nil))

end Verif
